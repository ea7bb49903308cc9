import Verif.DeleteJob

/-
C139: what the deletion of a download does, whichever downloads of its articles are running and in whatever order they end.
-/
namespace Verif.DeleteJob
open CStr

/-! ### The directory -/

theorem mem_own (done : List Done) (l : List Ent) (e : Ent) :
    e ∈ done.foldl (fun l d => if l.contains ⟨d.name, .file⟩ then l.filter (fun e => e.name != d.name) else l) l →
    e ∈ l ∧ ∀ d ∈ done, e ≠ ⟨d.name, .file⟩ := by
  induction done generalizing l with
  | nil => intro h; exact ⟨h, nofun⟩
  | cons d ds ih =>
    intro h
    rw [List.foldl_cons] at h
    have h2 := ih _ h
    by_cases hc : l.contains (⟨d.name, .file⟩ : Ent) = true
    · rw [if_pos hc] at h2
      rw [List.mem_filter] at h2
      refine ⟨h2.1.1, fun d' hd' => ?_⟩
      rcases List.mem_cons.mp hd' with rfl | hd'
      · intro he; have := h2.1.2; simp [he] at this
      · exact h2.2 d' hd'
    · rw [if_neg hc] at h2
      refine ⟨h2.1, fun d' hd' => ?_⟩
      rcases List.mem_cons.mp hd' with rfl | hd'
      · intro he; apply hc; rw [List.contains_iff_mem]; exact he ▸ h2.1
      · exact h2.2 d' hd'

theorem stays_own (done : List Done) (l : List Ent) (e : Ent) (he : e ∈ l) (hd : ∀ d ∈ done, d.name ≠ e.name) :
    e ∈ done.foldl (fun l d => if l.contains ⟨d.name, .file⟩ then l.filter (fun e => e.name != d.name) else l) l := by
  induction done generalizing l with
  | nil => exact he
  | cons d ds ih =>
    rw [List.foldl_cons]
    refine ih _ ?_ (fun d' hd' => hd d' (List.mem_cons_of_mem _ hd'))
    by_cases hc : l.contains (⟨d.name, .file⟩ : Ent) = true
    · rw [if_pos hc, List.mem_filter]
      refine ⟨he, ?_⟩
      have := hd d List.mem_cons_self
      simp only [bne_iff_ne, ne_eq]
      exact fun h => this h.symm
    · rw [if_neg hc]; exact he

/-- What is left of a directory after a cleaning was there before, is not a completed file of the download and not a temporary file of it. -/
theorem sweep_only {done : List Done} {l l' : List Ent} (h : sweep done l = some l') {e : Ent} (he : e ∈ l') :
    e ∈ l ∧ (∀ d ∈ done, e ≠ ⟨d.name, .file⟩) ∧ (isTemp e.name = true → e.kind = .fullDir) := by
  unfold sweep dropDir at h
  dsimp only at h
  split at h
  · cases h
  · have h := Option.some.inj h
    subst h
    rw [List.mem_filter] at he
    have h1 := mem_own done l e he.1
    refine ⟨h1.1, h1.2, fun ht => ?_⟩
    have := he.2
    simpa [ht] using this

/-- The names of temporary files. -/
theorem isTemp_iff (n : Bytes) : isTemp n = true ↔ ∃ p, p ≠ [] ∧ n = p ++ lit ".out.tmp" := by
  have h8 : (lit ".out.tmp").length = 8 := by decide +kernel
  unfold isTemp
  rw [Bool.and_eq_true, decide_eq_true_eq, beq_iff_eq]
  constructor
  · intro ⟨h1, h2⟩
    refine ⟨n.take (n.length - 8), ?_, ?_⟩
    · intro h
      have := congrArg List.length h
      rw [List.length_take, List.length_nil] at this
      omega
    · rw [← h2, List.take_append_drop]
  · rintro ⟨p, hp, rfl⟩
    have := List.length_pos_iff.mpr hp
    rw [List.length_append, h8]
    refine ⟨by omega, ?_⟩
    rw [show p.length + 8 - 8 = p.length from by omega, List.drop_left]

/-- A directory in which nothing but hidden names would be left is deleted. -/
theorem sweep_some {done : List Done} {l l' : List Ent} (h : sweep done l = some l') : ∃ e ∈ l', e.name.head? ≠ some 46 := by
  unfold sweep dropDir at h
  dsimp only at h
  split at h
  · cases h
  · rename_i hx
    have h := Option.some.inj h
    rw [h, List.all_eq_true] at hx
    apply Classical.byContradiction
    intro hc
    apply hx
    intro e he
    rw [beq_iff_eq]
    exact Classical.byContradiction (fun hn => hc ⟨e, he, hn⟩)

/-- **A cleaning deletes nothing else**: every other name stays, unless only hidden names are left. -/
theorem sweep_stays {done : List Done} {l : List Ent} {e : Ent} (he : e ∈ l) (hd : ∀ d ∈ done, d.name ≠ e.name)
    (ht : isTemp e.name = true → e.kind = .fullDir) (hh : e.name.head? ≠ some 46) : ∃ l', sweep done l = some l' ∧ e ∈ l' := by
  unfold sweep dropDir
  dsimp only
  have hm : e ∈ (done.foldl (fun l d => if l.contains ⟨d.name, .file⟩ then l.filter (fun e => e.name != d.name) else l) l).filter
      (fun e => !(isTemp e.name && e.kind != .fullDir)) := by
    rw [List.mem_filter]
    refine ⟨stays_own done l e he hd, ?_⟩
    by_cases h : isTemp e.name = true
    · simp [ht h]
    · simp [h]
  rw [if_neg]
  · exact ⟨_, rfl, hm⟩
  · intro hall
    rw [List.all_eq_true] at hall
    have := hall e hm
    simp at this
    exact hh this

/-! ### A deleted download leaves the queue -/

theorem completed_left (c : Config) (good : Bool) (j : Job) : (nzbCompleted c good j).place ≠ .queue := by
  unfold nzbCompleted addToHistory
  dsimp only
  by_cases h : (decide (c.keep > 0) && !j.avoid) = true
  · simp only [h, if_true]; exact nofun
  · simp only [h]; exact nofun

theorem downloaded_left (c : Config) (good : Bool) (j : Job) : (nzbDownloaded c good j).place ≠ .queue := by
  unfold nzbDownloaded
  split
  · exact nofun
  · exact completed_left c good j

theorem deleted_left (c : Config) (good : Bool) (j : Job) : (nzbDeleted c good j).place ≠ .queue := by
  unfold nzbDeleted
  dsimp only
  split
  · exact downloaded_left c good _
  · exact completed_left c good _

/-- The notification about a file either leaves the download as it is, or it leaves the queue; after a deleted file it stays only if another file is left. -/
theorem fileGone_cases (c : Config) (good completed : Bool) (f : File) (j : Job) :
    (fileGone c good completed f j = j ∧ (completed = false → j.place = .queue → isCompleted false j = false)) ∨
    (fileGone c good completed f j).place ≠ .queue := by
  unfold fileGone
  by_cases h1 : (j.place == .post) = true
  · rw [if_pos h1]
    refine Or.inl ⟨rfl, fun _ hq => ?_⟩
    rw [hq] at h1
    cases h1
  · rw [if_neg h1]
    by_cases h2 : ((completed || f.dupe) && j.del != .health && isCompleted true j) = true
    · rw [if_pos h2]; exact Or.inr (downloaded_left c good j)
    · rw [if_neg h2]
      by_cases h3 : ((!completed || j.del != .none) && isCompleted false j) = true
      · rw [if_pos h3]; exact Or.inr (deleted_left c good j)
      · rw [if_neg h3]
        refine Or.inl ⟨rfl, fun hc _ => ?_⟩
        subst hc
        simpa using h3

theorem fileGone_place (c : Config) (good completed : Bool) (f : File) (j : Job) :
    (fileGone c good completed f j).place = .queue → fileGone c good completed f j = j := by
  intro h
  rcases fileGone_cases c good completed f j with h' | h'
  · exact h'.1
  · exact absurd h h'

theorem not_completed_ne {j : Job} (h : isCompleted false j = false) : j.files ≠ [] := by
  intro he
  unfold isCompleted at h
  rw [he] at h
  cases h

/-- The download waits for the end of running downloads: all its files are to be deleted, each has a running download. `rest`: files not yet looked at. -/
structure Wait (rest : List Nat) (j : Job) : Prop where
  place : j.place = .queue
  deleting : j.deleting = true
  some : j.files ≠ []
  nodup : (j.files.map (·.id)).Nodup
  runs : ∀ f ∈ j.files, f.deleted = true → 0 < f.active
  todo : ∀ f ∈ j.files, f.deleted = false → f.id ∈ rest

def Left (j : Job) : Prop := j.place ≠ .queue

theorem nodup_filter {l : List File} (h : (l.map (·.id)).Nodup) (p : File → Bool) : ((l.filter p).map (·.id)).Nodup :=
  h.sublist ((List.filter_sublist (l := l)).map _)

theorem setFile_ids (id : Nat) (g : File → File) (hg : ∀ f, (g f).id = f.id) (l : List File) :
    (l.map (fun f => if f.id = id then g f else f)).map (·.id) = l.map (·.id) := by
  rw [List.map_map]
  apply List.map_congr_left
  intro f _
  simp only [Function.comp]
  split
  · exact hg f
  · rfl

/-- Removing a file from the list. -/
theorem remove_wait (c : Config) (good completed : Bool) (f : File) (j : Job) (rest : List Nat) (hc : (completed && !f.deleted) = false)
    (hq : j.place = .queue) (hd : j.deleting = true) (hn : (j.files.map (·.id)).Nodup)
    (hr : ∀ g ∈ j.files, g.id ≠ f.id → g.deleted = true → 0 < g.active) (ht : ∀ g ∈ j.files, g.id ≠ f.id → g.deleted = false → g.id ∈ rest) :
    Wait rest (deleteFileInfo c good completed f j) ∨ Left (deleteFileInfo c good completed f j) := by
  unfold deleteFileInfo
  rw [hc]
  rcases fileGone_cases c good false f { j with
      files := j.files.filter (fun g => g.id != f.id)
      completed := if completed || j.parking then j.completed ++ [⟨f.id, f.name, f.cf⟩] else j.completed } with ⟨h, h2⟩ | h
  · left
    rw [h]
    refine ⟨hq, hd, not_completed_ne (h2 rfl hq), nodup_filter hn _, ?_, ?_⟩
    · intro g hg
      rw [List.mem_filter] at hg
      exact hr g hg.1 (by simpa using hg.2)
    · intro g hg
      rw [List.mem_filter] at hg
      exact ht g hg.1 (by simpa using hg.2)
  · exact Or.inr h

theorem find_mem {l : List File} {id : Nat} {f : File} (h : l.find? (fun f => f.id == id) = some f) : f ∈ l ∧ f.id = id :=
  ⟨List.mem_of_find?_eq_some h, by simpa using List.find?_some h⟩

theorem same_file {l : List File} (h : (l.map (·.id)).Nodup) {f g : File} (hf : f ∈ l) (hg : g ∈ l) (hi : f.id = g.id) : f = g := by
  induction l with
  | nil => cases hf
  | cons a l ih =>
    rw [List.map_cons, List.nodup_cons] at h
    rcases List.mem_cons.mp hf with rfl | hf' <;> rcases List.mem_cons.mp hg with rfl | hg'
    · rfl
    · exact absurd (List.mem_map.mpr ⟨g, hg', hi.symm⟩) h.1
    · exact absurd (List.mem_map.mpr ⟨f, hf', hi⟩) h.1
    · exact ih h.2 hf' hg'

theorem place_setFile (id : Nat) (g : File → File) (j : Job) : (setFile id g j).place = j.place := rfl

theorem deleteFileInfo_left {c : Config} {good completed : Bool} {f : File} {j : Job} (h : Left j) : Left (deleteFileInfo c good completed f j) := by
  intro hq
  unfold deleteFileInfo at hq
  rw [fileGone_place _ _ _ _ _ hq] at hq
  exact h hq

theorem deleteEntry_left {c : Config} {good : Bool} {j : Job} {id : Nat} (h : Left j) : Left (deleteEntry c good j id) := by
  unfold deleteEntry
  split
  · exact h
  · split
    · exact h
    · unfold deleteQueueEntry
      dsimp only
      split
      · exact deleteFileInfo_left h
      · exact h

theorem fold_left {c : Config} {good : Bool} (ids : List Nat) {j : Job} (h : Left j) : Left (ids.foldl (deleteEntry c good) j) := by
  induction ids generalizing j with
  | nil => exact h
  | cons i is ih => exact ih (deleteEntry_left h)

theorem deleteEntry_wait {c : Config} {good : Bool} {j : Job} {id : Nat} {rest : List Nat} (h : Wait (id :: rest) j) :
    Wait rest (deleteEntry c good j id) ∨ Left (deleteEntry c good j id) := by
  unfold deleteEntry
  split
  · rename_i hf
    left
    refine { h with todo := fun f hm hd => ?_ }
    rcases List.mem_cons.mp (h.todo f hm hd) with hi | hi
    · rw [List.find?_eq_none] at hf
      have := hf f hm
      simp [hi] at this
    · exact hi
  · rename_i f hf
    have ⟨hm, hi⟩ := find_mem hf
    split
    · rename_i hdel
      left
      refine { h with todo := fun g hg hd => ?_ }
      rcases List.mem_cons.mp (h.todo g hg hd) with hi' | hi'
      · have := same_file h.nodup hg hm (hi'.trans hi.symm)
        rw [this, hdel] at hd
        cases hd
      · exact hi'
    · rename_i hdel
      have hids : ((setFile f.id (fun f => { f with deleted := true }) j).files.map (·.id)) = j.files.map (·.id) :=
        setFile_ids f.id (fun f => { f with deleted := true }) (fun _ => rfl) j.files
      have hback : ∀ g ∈ (setFile f.id (fun f => { f with deleted := true }) j).files, g.id ≠ f.id → g ∈ j.files := by
        intro g hg hne
        obtain ⟨g', hg', rfl⟩ := List.mem_map.mp hg
        by_cases hx : g'.id = f.id
        · rw [if_pos hx] at hne; exact absurd hx hne
        · rw [if_neg hx]; exact hg'
      unfold deleteQueueEntry
      dsimp only
      split
      · refine remove_wait c good false _ _ rest rfl h.place h.deleting (by rw [hids]; exact h.nodup) ?_ ?_
        · intro g hg hne; exact h.runs g (hback g hg hne)
        · intro g hg hne hd
          rcases List.mem_cons.mp (h.todo g (hback g hg hne) hd) with hi' | hi'
          · exact absurd (hi'.trans hi.symm) hne
          · exact hi'
      · rename_i hact
        left
        refine ⟨h.place, h.deleting, ?_, by rw [hids]; exact h.nodup, ?_, ?_⟩
        · intro he
          have := congrArg (List.map (·.id)) he
          rw [hids] at this
          exact h.some (List.map_eq_nil_iff.mp this)
        · intro g hg hd
          obtain ⟨g', hg', rfl⟩ := List.mem_map.mp hg
          by_cases hx : g'.id = f.id
          · rw [if_pos hx]
            have := same_file h.nodup hg' hm hx
            subst this
            exact Nat.pos_of_ne_zero hact
          · rw [if_neg hx] at hd ⊢
            exact h.runs g' hg' hd
        · intro g hg hd
          obtain ⟨g', hg', rfl⟩ := List.mem_map.mp hg
          by_cases hx : g'.id = f.id
          · rw [if_pos hx] at hd; cases hd
          · rw [if_neg hx] at hd ⊢
            rcases List.mem_cons.mp (h.todo g' hg' hd) with hi' | hi'
            · exact absurd (hi'.trans hi.symm) hx
            · exact hi'

theorem fold_wait {c : Config} {good : Bool} (ids : List Nat) {j : Job} (h : Wait ids j) :
    Wait [] (ids.foldl (deleteEntry c good) j) ∨ Left (ids.foldl (deleteEntry c good) j) := by
  induction ids generalizing j with
  | nil => exact Or.inl h
  | cons i is ih =>
    rcases deleteEntry_wait h with h' | h'
    · exact ih h'
    · exact Or.inr (fold_left is h')

/-- A download in the queue as the program keeps it: different numbers of files; a file to be deleted has a running download (else it is removed at once). -/
structure Normal (j : Job) : Prop where
  nodup : (j.files.map (·.id)).Nodup
  runs : ∀ f ∈ j.files, f.deleted = true → 0 < f.active

theorem editGroup_wait {c : Config} {good : Bool} {a : Act} {j : Job} (hq : j.place = .queue) (hn : Normal j) (hf : j.files ≠ []) :
    Wait [] (editGroup c good a j) ∨ Left (editGroup c good a j) := by
  have hw : Wait (j.files.map (·.id)) (mark c a j) := ⟨hq, rfl, hf, hn.nodup, hn.runs, fun f hf _ => List.mem_map.mpr ⟨f, hf, rfl⟩⟩
  unfold editGroup
  dsimp only
  rcases fold_wait (c := c) (good := good) _ hw with h | h
  · rw [if_neg]
    · exact Or.inl h
    · intro hx
      simp only [Bool.and_eq_true, List.isEmpty_iff] at hx
      exact h.some hx.2
  · split
    · exact Or.inr (deleted_left c good _)
    · exact Or.inr h

theorem editGroup_left {c : Config} {good : Bool} {a : Act} {j : Job} (h : Left j) : Left (editGroup c good a j) := by
  unfold editGroup
  dsimp only
  split
  · exact deleted_left c good _
  · exact fold_left _ h

theorem setFile_wait {j : Job} (h : Wait [] j) (id : Nat) (g : File → File) (hi : ∀ f, (g f).id = f.id) (hd : ∀ f, f.deleted = true → (g f).deleted = true)
    (ha : ∀ f, f.id = id → f ∈ j.files → 0 < (g f).active) : Wait [] (setFile id g j) := by
  refine ⟨h.place, h.deleting, ?_, ?_, ?_, ?_⟩
  · intro he; exact h.some (List.map_eq_nil_iff.mp he)
  · rw [show (setFile id g j).files.map (·.id) = _ from setFile_ids id g hi j.files]; exact h.nodup
  · intro f hf _
    obtain ⟨f', hf', rfl⟩ := List.mem_map.mp hf
    by_cases hx : f'.id = id
    · rw [if_pos hx]; exact ha f' hx hf'
    · rw [if_neg hx]
      cases hdel : f'.deleted with
      | true => exact h.runs f' hf' hdel
      | false => exact absurd (h.todo f' hf' hdel) List.not_mem_nil
  · intro f hf hdf
    obtain ⟨f', hf', rfl⟩ := List.mem_map.mp hf
    cases hdel : f'.deleted with
    | true =>
      by_cases hx : f'.id = id
      · rw [if_pos hx, hd f' hdel] at hdf; cases hdf
      · rw [if_neg hx, hdel] at hdf; cases hdf
    | false => exact absurd (h.todo f' hf' hdel) List.not_mem_nil

theorem wait_deleted {j : Job} (h : Wait [] j) {f : File} (hf : f ∈ j.files) : f.deleted = true := by
  cases hdel : f.deleted with
  | true => rfl
  | false => exact absurd (h.todo f hf hdel) List.not_mem_nil

theorem fold_same {c : Config} {good : Bool} (ids : List Nat) {j : Job} (h : ∀ f ∈ j.files, f.deleted = true) : ids.foldl (deleteEntry c good) j = j := by
  induction ids with
  | nil => rfl
  | cons i is ih =>
    rw [List.foldl_cons]
    have : deleteEntry c good j i = j := by
      unfold deleteEntry
      split
      · rfl
      · rename_i f hf
        rw [if_pos (h f (find_mem hf).1)]
    rw [this]; exact ih

/-- A further command changes only how the download ends. -/
theorem editGroup_again {c : Config} {good : Bool} {a : Act} {j : Job} (h : Wait [] j) : editGroup c good a j = mark c a j := by
  unfold editGroup
  dsimp only
  have hs : (j.files.map (·.id)).foldl (deleteEntry c good) (mark c a j) = mark c a j := fold_same _ (fun f (hf : f ∈ j.files) => wait_deleted h hf)
  rw [hs, if_neg]
  intro hx
  simp only [Bool.and_eq_true, List.isEmpty_iff] at hx
  exact h.some hx.2

theorem mark_wait {c : Config} {a : Act} {j : Job} (h : Wait [] j) : Wait [] (mark c a j) := ⟨h.place, rfl, h.some, h.nodup, h.runs, h.todo⟩

theorem step_left {c : Config} {good : Bool} {j : Job} (e : Ev) (h : Left j) : Left (step c good j e) := by
  cases e with
  | delete a => unfold step; dsimp only; split; exact editGroup_left h; exact h
  | start id => unfold step; dsimp only; split <;> exact h
  | ended id ok all dupe cf low =>
    unfold step
    dsimp only
    split
    · exact h
    · rename_i f0 hf0
      split
      · exact h
      · unfold articleEnded
        have h2 : Left (noted f0.id ok dupe cf j) := h
        have h3 : Left (health c good low (noted f0.id ok dupe cf j)) := by
          unfold health checkHealth
          split
          · exact h2
          · split
            · exact h2
            · exact editGroup_left h2
        generalize health c good low (noted f0.id ok dupe cf j) = j3 at h3
        unfold settle
        split
        · exact h3
        · dsimp only
          split
          · exact h3
          · split
            · exact deleteFileInfo_left h3
            · exact h3
  | written id name =>
    unfold step
    dsimp only
    split
    · exact h
    · split
      · exact deleteFileInfo_left h
      · exact h
  | post => unfold step; dsimp only; split; exact completed_left c good j; exact h

theorem step_wait {c : Config} {good : Bool} {j : Job} (e : Ev) (h : Wait [] j) : Wait [] (step c good j e) ∨ Left (step c good j e) := by
  cases e with
  | delete a =>
    unfold step
    dsimp only
    rw [if_pos (Or.inl h.place), editGroup_again h]
    exact Or.inl (mark_wait h)
  | start id =>
    unfold step
    dsimp only
    rw [if_neg]
    · exact Or.inl h
    · intro hx
      obtain ⟨f, hf, hd⟩ := List.any_eq_true.mp hx.2
      rw [wait_deleted h hf] at hd
      cases hd
  | ended id ok all dupe cf low =>
    unfold step
    dsimp only
    split
    · exact Or.inl h
    · rename_i f0 hf0
      split
      · exact Or.inl h
      · unfold articleEnded
        have h2 : Wait [] (noted f0.id ok dupe cf j) := by
          have h1 : Wait [] { j with success := j.success + if ok then 1 else 0 } := ⟨h.place, h.deleting, h.some, h.nodup, h.runs, h.todo⟩
          exact setFile_wait h1 _ _ (fun _ => rfl) (fun f hf => by simp [hf]) (fun f _ hm => h1.runs f hm (wait_deleted h1 hm))
        generalize noted f0.id ok dupe cf j = j2 at h2
        have h3 : Wait [] (health c good low j2) := by
          unfold health checkHealth
          split
          · exact h2
          · split
            · exact h2
            · have hw : Wait [] { j2 with del := .health } := ⟨h2.place, h2.deleting, h2.some, h2.nodup, h2.runs, h2.todo⟩
              rw [editGroup_again hw]
              exact mark_wait hw
        generalize health c good low j2 = j3 at h3
        unfold settle
        split
        · exact Or.inl h3
        · rename_i f hf
          have ⟨hm, hi⟩ := find_mem hf
          dsimp only
          split
          · exact Or.inl (setFile_wait h3 _ _ (fun _ => rfl) (fun _ hf => hf) (fun f _ hm => h3.runs f hm (wait_deleted h3 hm)))
          · by_cases ha : f.active = 1
            · rw [if_pos (by simp [wait_deleted h3 hm, ha])]
              refine remove_wait c good false _ _ [] rfl h3.place h3.deleting ?_ ?_ ?_
              · rw [show (setFile f.id (fun f => { f with active := f.active - 1 }) j3).files.map (·.id) = _ from
                  setFile_ids f.id (fun f => { f with active := f.active - 1 }) (fun _ => rfl) j3.files]
                exact h3.nodup
              · intro g hg hne hd
                obtain ⟨g', hg', rfl⟩ := List.mem_map.mp hg
                by_cases hx : g'.id = f.id
                · rw [if_pos hx] at hne; exact absurd hx hne
                · rw [if_neg hx] at hd ⊢; exact h3.runs g' hg' hd
              · intro g hg hne hd
                obtain ⟨g', hg', rfl⟩ := List.mem_map.mp hg
                by_cases hx : g'.id = f.id
                · rw [if_pos hx] at hne; exact absurd hx hne
                · rw [if_neg hx] at hd ⊢; exact h3.todo g' hg' hd
            · rw [if_neg (by simp [ha])]
              left
              refine setFile_wait h3 _ _ (fun _ => rfl) (fun _ hf => hf) (fun g hg hgm => ?_)
              have := same_file h3.nodup hgm hm hg
              subst this
              have := h3.runs g hm (wait_deleted h3 hm)
              show 0 < g.active - 1
              omega
  | written id name =>
    unfold step
    dsimp only
    split
    · exact Or.inl h
    · rename_i f hf
      have ⟨hm, hi⟩ := find_mem hf
      split
      · unfold fileWritten
        exact remove_wait c good true { f with name := name, active := 0 } _ [] (by simp [wait_deleted h hm]) h.place h.deleting h.nodup
          (fun g hg _ => h.runs g hg) (fun g hg _ => h.todo g hg)
      · exact Or.inl h
  | post =>
    unfold step
    dsimp only
    rw [if_neg (by rw [h.place]; exact nofun)]
    exact Or.inl h

theorem exec_wait {c : Config} {good : Bool} (evs : List Ev) {j : Job} (h : Wait [] j ∨ Left j) : Wait [] (exec c good j evs) ∨ Left (exec c good j evs) := by
  induction evs generalizing j with
  | nil => exact h
  | cons e es ih =>
    refine ih ?_
    rcases h with h | h
    · exact step_wait e h
    · exact Or.inr (step_left e h)

/-- **A deleted download leaves the queue**: whatever happens behind the command (downloads of articles end in any order, further commands, the health
check), it is no longer among the downloads of the queue as soon as none of its articles is being downloaded; until then nothing of it is started. -/
theorem leaves {c : Config} {good : Bool} {a : Act} {j : Job} (hq : j.place = .queue) (hn : Normal j) (hf : j.files ≠ []) (evs : List Ev)
    (hs : (exec c good j (.delete a :: evs)).place = .queue) :
    (∃ f ∈ (exec c good j (.delete a :: evs)).files, 0 < f.active) ∧ ∀ id, exec c good j (.delete a :: evs ++ [.start id]) = exec c good j (.delete a :: evs) := by
  have h0 : step c good j (.delete a) = editGroup c good a j := by
    unfold step; dsimp only; rw [if_pos (Or.inl hq)]
  have hw := exec_wait (c := c) (good := good) evs (h0 ▸ editGroup_wait (c := c) (good := good) (a := a) hq hn hf)
  change Wait [] (exec c good j (.delete a :: evs)) ∨ Left (exec c good j (.delete a :: evs)) at hw
  rcases hw with h | h
  · obtain ⟨f, hm⟩ := List.exists_mem_of_ne_nil _ h.some
    refine ⟨⟨f, hm, h.runs f hm (wait_deleted h hm)⟩, fun id => ?_⟩
    have : exec c good j (.delete a :: evs ++ [.start id]) = step c good (exec c good j (.delete a :: evs)) (.start id) := by
      unfold exec; rw [List.foldl_append]; rfl
    rw [this]
    show (if _ then _ else _) = _
    rw [if_neg]
    intro hx
    obtain ⟨f, hf, hd⟩ := List.any_eq_true.mp hx.2
    rw [wait_deleted h hf] at hd
    cases hd
  · exact absurd hs h

/-- A download without files: the commands remove it at once … -/
theorem leaves_empty {c : Config} {good : Bool} {a : Act} {j : Job} (hq : j.place = .queue) (hf : j.files = []) (ha : a ≠ .park) :
    (step c good j (.delete a)).place ≠ .queue := by
  have h0 : step c good j (.delete a) = nzbDeleted c good (mark c a j) := by
    unfold step; dsimp only; rw [if_pos (Or.inl hq)]
    unfold editGroup
    dsimp only
    rw [hf, List.map_nil, List.foldl_nil, if_pos]
    have : (mark c a j).files.isEmpty = true := by show j.files.isEmpty = true; rw [hf]; rfl
    have h2 : (mark c a j).place = .queue := hq
    cases a <;> simp_all [mark]
  rw [h0]
  exact deleted_left c good _

/-- … except for the command which parks: it stays in the queue, whatever happens, until another command. -/
theorem park_empty_stays {c : Config} {good : Bool} {j : Job} (hq : j.place = .queue) (hf : j.files = []) (evs : List Ev)
    (hev : ∀ e ∈ evs, ∀ a, e = .delete a → a = .park) : (exec c good j (.delete .park :: evs)).place = .queue := by
  have key : ∀ (evs : List Ev) (j : Job), j.place = .queue → j.files = [] → (∀ e ∈ evs, ∀ a, e = .delete a → a = .park) →
      (exec c good j evs).place = .queue := by
    intro evs
    induction evs with
    | nil => intro j hq _ _; exact hq
    | cons e es ih =>
      intro j hq hf hev
      have hes : ∀ e ∈ es, ∀ a, e = .delete a → a = .park := fun e he => hev e (List.mem_cons_of_mem _ he)
      have hst : (step c good j e).place = .queue ∧ (step c good j e).files = [] := by
        cases e with
        | delete a =>
          have := hev _ List.mem_cons_self a rfl
          subst this
          unfold step; dsimp only; rw [if_pos (Or.inl hq)]
          unfold editGroup
          dsimp only
          rw [hf, List.map_nil, List.foldl_nil, if_neg (by simp)]
          exact ⟨hq, hf⟩
        | start id => unfold step; dsimp only; rw [hf]; simp [hq, hf]
        | ended id ok all dupe cf low => unfold step; dsimp only; rw [hf]; simp [hq, hf]
        | written id name => unfold step; dsimp only; rw [hf]; simp [hq, hf]
        | post => unfold step; dsimp only; rw [if_neg (by rw [hq]; exact nofun)]; exact ⟨hq, hf⟩
      exact ih _ hst.1 hst.2 hes
  refine key _ j hq hf ?_
  intro e he a ha
  rcases List.mem_cons.mp he with rfl | he
  · cases ha; rfl
  · exact hev e he a ha

/-! ### How it ends -/

/-- What the command says: are the remaining files kept for later (parked). -/
def parks (c : Config) (a : Act) (j : Job) : Bool := a == .park && decide (c.keep > 0) && !j.cleaned && decide (j.success > 0)

/-- The status of the download because of which it is deleted. -/
def reason (a : Act) (j : Job) : Dupe.Del := if a == .dupe then .dupe else j.del

def Has (i : Nat) (j : Job) : Prop := (∃ f ∈ j.files, f.id = i) ∨ ∃ d ∈ j.completed, d.id = i

/-- While the download waits: nothing but new completed files came into the directory, nothing went, and the command is remembered. -/
structure Core (c : Config) (a : Act) (j0 j : Job) : Prop where
  place : j.place = .queue
  parking : j.parking = parks c a j0
  avoid : j.avoid = (a == .final)
  cleanup : j.cleanup = (a != .park)
  del : j.del = reason a j0
  cleaned : j.cleaned = j0.cleaned
  nzb : j.nzb = j0.nzb
  discarded : j.discarded = j0.discarded
  kept : ∀ d ∈ j0.completed, d ∈ j.completed
  old : ∀ l0, j0.dir = some l0 → ∃ l, j.dir = some l ∧ ∀ e ∈ l0, e ∈ l
  ids : parks c a j0 = true → ∀ i, Has i j0 → Has i j

/-- Every file of the directory was there before or is one of the completed files (or has this name). -/
def Fresh (j0 j : Job) (n : Option Bytes) : Prop :=
  ∀ l e, j.dir = some l → e ∈ l → (∃ l0, j0.dir = some l0 ∧ e ∈ l0) ∨ (e.kind = .file ∧ ((∃ d ∈ j.completed, d.name = e.name) ∨ n = some e.name))

structure Files (rest : List Nat) (l : List File) : Prop where
  nodup : (l.map (·.id)).Nodup
  plain : ∀ f ∈ l, f.dupe = false
  runs : ∀ f ∈ l, f.deleted = true → 0 < f.active
  todo : ∀ f ∈ l, f.deleted = false → f.id ∈ rest

structure Waits (c : Config) (a : Act) (j0 : Job) (rest : List Nat) (j : Job) : Prop where
  core : Core c a j0 j
  fresh : Fresh j0 j none
  files : Files rest j.files
  some : j.files ≠ []

/-- **How a deletion ends**: the place of the download, its status, its directory, its files. -/
structure Ends (c : Config) (a : Act) (j0 j : Job) : Prop where
  place : j.place = if c.keep > 0 ∧ a ≠ .final then .history else .gone
  del : j.del = if reason a j0 = .none then .manual else reason a j0
  files : j.files = []
  /-- All that is left was there before the command, except for the completed files of the download and its temporary files. -/
  swept : a ≠ .park ∨ reason a j0 = .dupe → ∀ l e, j.dir = some l → e ∈ l →
    (∃ l0, j0.dir = some l0 ∧ e ∈ l0) ∧ (∀ d ∈ j0.completed, e ≠ ⟨d.name, .file⟩) ∧ (isTemp e.name = true → e.kind = .fullDir)
  /-- The directory is deleted if only hidden names would be left. -/
  bare : a ≠ .park ∨ reason a j0 = .dupe → ∀ l, j.dir = some l → ∃ e ∈ l, e.name.head? ≠ some 46
  /-- Parking deletes nothing. -/
  whole : a = .park → reason a j0 ≠ .dupe → ∀ l0, j0.dir = some l0 → ∃ l, j.dir = some l ∧ ∀ e ∈ l0, e ∈ l
  /-- Every file of a parked download can be found in the history, with what is needed to download its rest. -/
  parked : parks c a j0 = true → j.discarded = j0.discarded ∧ ∀ i, Has i j0 → ∃ d ∈ j.completed, d.id = i
  /-- Nothing is kept for later if it isn't parked. -/
  dropped : parks c a j0 = false → j.discarded = true ∧ (j.place = .history → j.completed = [])
  /-- The nzb-file is deleted only if this is wanted and there is no entry in the history. -/
  nzb : j.nzb = (j0.nzb && !(c.nzbCleanup && j.place == .gone))

theorem parks_keep {c : Config} {a : Act} {j : Job} (h : parks c a j = true) : c.keep > 0 ∧ a = .park ∧ j.cleaned = false := by
  unfold parks at h
  simp only [Bool.and_eq_true, decide_eq_true_eq, Bool.not_eq_true', beq_iff_eq] at h
  exact ⟨h.1.1.2, h.1.1.1, h.1.2⟩

theorem deleted_ends {c : Config} {good : Bool} {a : Act} {j0 j : Job} (h : Core c a j0 j) (hf : Fresh j0 j none) (hb : reason a j0 ≠ .health) (hb2 : reason a j0 ≠ .bad) :
    Ends c a j0 (nzbDeleted c good j) := by
  have hdel : (setDeleted j).del = if reason a j0 = .none then .manual else reason a j0 := by
    show (if j.del = .none then _ else j.del) = _
    rw [h.del]
  have hcdel : (deleteCleanup (setDeleted j)).del = if reason a j0 = .none then .manual else reason a j0 := by
    rw [← hdel]; unfold deleteCleanup; split <;> rfl
  have hnb : ((deleteCleanup (setDeleted j)).del == .health || (deleteCleanup (setDeleted j)).del == .bad) = false := by
    rw [hcdel]
    revert hb hb2
    cases reason a j0 <;> intro hb hb2 <;> first | rfl | exact absurd rfl hb | exact absurd rfl hb2
  have hj : nzbDeleted c good j = nzbCompleted c good (deleteCleanup (setDeleted j)) := by
    unfold nzbDeleted; dsimp only; rw [hnb]; rfl
  have hcond : ((setDeleted j).cleanup || (setDeleted j).del == .dupe) = (a != .park || reason a j0 == .dupe) := by
    rw [hdel]
    show (j.cleanup || _) = _
    rw [h.cleanup]
    cases reason a j0 <;> rfl
  have e1 : (deleteCleanup (setDeleted j)).avoid = (a == .final) := by unfold deleteCleanup; split <;> exact h.avoid
  have e2 : (deleteCleanup (setDeleted j)).parking = parks c a j0 := by unfold deleteCleanup; split <;> exact h.parking
  have e3 : (deleteCleanup (setDeleted j)).cleaned = j0.cleaned := by unfold deleteCleanup; split <;> exact h.cleaned
  have e4 : (deleteCleanup (setDeleted j)).nzb = j0.nzb := by unfold deleteCleanup; split <;> exact h.nzb
  have e5 : (deleteCleanup (setDeleted j)).discarded = j0.discarded := by unfold deleteCleanup; split <;> exact h.discarded
  have e6 : (deleteCleanup (setDeleted j)).completed = j.completed := by unfold deleteCleanup; split <;> rfl
  have e7 : (deleteCleanup (setDeleted j)).files = j.files := by unfold deleteCleanup; split <;> rfl
  have e8 : (a ≠ .park ∨ reason a j0 = .dupe) → (deleteCleanup (setDeleted j)).dir = j.dir.bind (sweep j.completed) := by
    intro hx
    unfold deleteCleanup
    rw [hcond, if_pos]
    · rfl
    · rcases hx with hx | hx <;> simp [hx]
  have e9 : a = .park → reason a j0 ≠ .dupe → (deleteCleanup (setDeleted j)).dir = j.dir := by
    intro hx hy
    unfold deleteCleanup
    rw [hcond, if_neg]
    · rfl
    · simp [hx]; rw [hx] at hy; exact hy
  rw [hj]
  generalize deleteCleanup (setDeleted j) = k at *
  have hdir : (nzbCompleted c good k).dir = k.dir := by
    unfold nzbCompleted addToHistory; dsimp only
    cases (decide (c.keep > 0) && !k.avoid) <;> rfl
  have hdel' : (nzbCompleted c good k).del = k.del := by
    unfold nzbCompleted addToHistory; dsimp only
    cases (decide (c.keep > 0) && !k.avoid) <;> rfl
  have hfiles : (nzbCompleted c good k).files = [] := by
    unfold nzbCompleted addToHistory; dsimp only
    cases (decide (c.keep > 0) && !k.avoid) <;> rfl
  have hplace : (nzbCompleted c good k).place = if c.keep > 0 ∧ a ≠ .final then .history else .gone := by
    unfold nzbCompleted addToHistory; dsimp only
    rw [e1]
    by_cases hk : c.keep > 0 <;> cases a <;> simp [hk]
  have hnzb : (nzbCompleted c good k).nzb = (j0.nzb && !(c.nzbCleanup && (nzbCompleted c good k).place == .gone)) := by
    rw [hplace]
    unfold nzbCompleted addToHistory; dsimp only
    rw [e1, ← e4]
    by_cases hk : c.keep > 0 <;> cases a <;> cases c.nzbCleanup <;> simp [hk]
  have hdelne : (k.del != .none) = true := by
    rw [hcdel]; cases reason a j0 <;> rfl
  refine ⟨hplace, hdel'.trans hcdel, hfiles, ?_, ?_, ?_, ?_, ?_, hnzb⟩
  · intro hx l e hl he
    rw [hdir, e8 hx] at hl
    cases hjd : j.dir with
    | none => rw [hjd] at hl; cases hl
    | some l1 =>
      rw [hjd] at hl
      have hs := sweep_only (show sweep j.completed l1 = some l from hl) he
      refine ⟨?_, fun d hd => hs.2.1 d (h.kept d hd), hs.2.2⟩
      rcases hf l1 e hjd hs.1 with hh | ⟨hk, ⟨d, hd, hn⟩ | hh⟩
      · exact hh
      · exact absurd (show e = ⟨d.name, .file⟩ by rw [hn, ← hk]) (hs.2.1 d hd)
      · cases hh
  · intro hx l hl
    rw [hdir, e8 hx] at hl
    cases hjd : j.dir with
    | none => rw [hjd] at hl; cases hl
    | some l1 => rw [hjd] at hl; exact sweep_some hl
  · intro hx hy l0 hl0
    rw [hdir, e9 hx hy]
    exact h.old l0 hl0
  · intro hp
    have ⟨hk, ha, hc⟩ := parks_keep hp
    have hadd : (decide (c.keep > 0) && !k.avoid) = true := by rw [e1, ha]; simp [hk]
    have hclean : (((good || k.del != .none) && !k.parking) || k.cleaned) = false := by rw [e2, hp, e3, hc]; simp
    have hcomp : (nzbCompleted c good k).completed = k.completed ++ k.files.map (fun f => ⟨f.id, f.name, .none⟩) := by
      unfold nzbCompleted addToHistory; dsimp only; rw [hadd]; simp only [if_true]; rw [hclean]; rfl
    have hdisc : (nzbCompleted c good k).discarded = k.discarded := by
      unfold nzbCompleted addToHistory; dsimp only; rw [hadd]; simp only [if_true]; rw [hclean]; simp
    refine ⟨hdisc.trans e5, fun i hi => ?_⟩
    rw [hcomp, e6, e7]
    rcases h.ids hp i hi with ⟨f, hf, rfl⟩ | ⟨d, hd, rfl⟩
    · exact ⟨⟨f.id, f.name, .none⟩, List.mem_append_right _ (List.mem_map.mpr ⟨f, hf, rfl⟩), rfl⟩
    · exact ⟨d, List.mem_append_left _ hd, rfl⟩
  · intro hp
    unfold nzbCompleted addToHistory
    dsimp only
    rw [e2, hp, hdelne]
    cases (decide (c.keep > 0) && !k.avoid) <;> simp

/-- A file is removed from the list of a download which is being deleted. -/
theorem remove_ends {c : Config} {good completed : Bool} {a : Act} {f : File} {j0 j : Job} {rest : List Nat} (hc : (completed && !f.deleted) = false)
    (hcore : Core c a j0 j) (hfresh : Fresh j0 j (if completed then some f.name else none)) (hfs : Files rest (j.files.filter (fun g => g.id != f.id)))
    (hfd : f.dupe = false) (hb : reason a j0 ≠ .health) (hb2 : reason a j0 ≠ .bad) :
    Waits c a j0 rest (deleteFileInfo c good completed f j) ∨ Ends c a j0 (deleteFileInfo c good completed f j) := by
  unfold deleteFileInfo
  rw [hc]
  generalize hk : ({ j with
      files := j.files.filter (fun g => g.id != f.id)
      completed := if completed || j.parking then j.completed ++ [⟨f.id, f.name, f.cf⟩] else j.completed } : Job) = k
  have kc : k.completed = if completed || j.parking then j.completed ++ [⟨f.id, f.name, f.cf⟩] else j.completed := by rw [← hk]
  have kf : k.files = j.files.filter (fun g => g.id != f.id) := by rw [← hk]
  have kd : k.dir = j.dir := by rw [← hk]
  have hcore' : Core c a j0 k := by
    refine ⟨by rw [← hk]; exact hcore.place, by rw [← hk]; exact hcore.parking, by rw [← hk]; exact hcore.avoid, by rw [← hk]; exact hcore.cleanup,
      by rw [← hk]; exact hcore.del, by rw [← hk]; exact hcore.cleaned, by rw [← hk]; exact hcore.nzb, by rw [← hk]; exact hcore.discarded, ?_, ?_, ?_⟩
    · intro d hd
      rw [kc]
      split
      · exact List.mem_append_left _ (hcore.kept d hd)
      · exact hcore.kept d hd
    · rw [kd]; exact hcore.old
    · intro hp i hi
      have hpk : (completed || j.parking) = true := by rw [hcore.parking, hp]; simp
      rcases hcore.ids hp i hi with ⟨g, hg, rfl⟩ | ⟨d, hd, rfl⟩
      · by_cases hgi : g.id = f.id
        · right
          refine ⟨⟨f.id, f.name, f.cf⟩, ?_, hgi.symm⟩
          rw [kc, if_pos hpk]
          exact List.mem_append_right _ List.mem_cons_self
        · left
          refine ⟨g, ?_, rfl⟩
          rw [kf, List.mem_filter]
          exact ⟨hg, by simpa using hgi⟩
      · right
        refine ⟨d, ?_, rfl⟩
        rw [kc, if_pos hpk]
        exact List.mem_append_left _ hd
  have hfresh' : Fresh j0 k none := by
    intro l e hl he
    rw [kd] at hl
    rcases hfresh l e hl he with h | ⟨h1, ⟨d, hd, hn⟩ | h⟩
    · exact Or.inl h
    · refine Or.inr ⟨h1, Or.inl ⟨d, ?_, hn⟩⟩
      rw [kc]; split
      · exact List.mem_append_left _ hd
      · exact hd
    · cases hcc : completed with
      | false => rw [hcc] at h; cases h
      | true =>
        rw [hcc] at h
        refine Or.inr ⟨h1, Or.inl ⟨⟨f.id, f.name, f.cf⟩, ?_, Option.some.inj h⟩⟩
        rw [kc, hcc]
        exact List.mem_append_right _ List.mem_cons_self
  have hfs' : Files rest k.files := by rw [kf]; exact hfs
  clear hk kc kf kd
  unfold fileGone
  rw [if_neg (by rw [hcore'.place]; exact nofun), if_neg (by rw [hfd]; exact nofun)]
  by_cases h3 : isCompleted false k = true
  · rw [if_pos (by simpa using h3)]
    exact Or.inr (deleted_ends hcore' hfresh' hb hb2)
  · rw [if_neg (by simpa using h3)]
    exact Or.inl ⟨hcore', hfresh', hfs', not_completed_ne (by simpa using h3)⟩

theorem files_filter {rest : List Nat} {l : List File} (h : Files rest l) (p : File → Bool) : Files rest (l.filter p) :=
  ⟨nodup_filter h.nodup p, fun f hf => h.plain f (List.mem_filter.mp hf).1, fun f hf => h.runs f (List.mem_filter.mp hf).1,
    fun f hf => h.todo f (List.mem_filter.mp hf).1⟩

theorem filter_set (id : Nat) (g : File → File) (hg : ∀ f, (g f).id = f.id) (l : List File) :
    (l.map (fun f => if f.id = id then g f else f)).filter (fun f => f.id != id) = l.filter (fun f => f.id != id) := by
  induction l with
  | nil => rfl
  | cons a l ih =>
    rw [List.map_cons]
    by_cases h : a.id = id
    · rw [if_pos h, List.filter_cons_of_neg (by rw [hg]; simp [h]), List.filter_cons_of_neg (by simp [h]), ih]
    · rw [if_neg h, List.filter_cons_of_pos (by simp [h]), List.filter_cons_of_pos (by simp [h]), ih]

theorem core_set {c : Config} {a : Act} {j0 j : Job} (h : Core c a j0 j) (id : Nat) (g : File → File) (hg : ∀ f, (g f).id = f.id) (n : Nat) :
    Core c a j0 (setFile id g { j with success := n }) := by
  refine ⟨h.place, h.parking, h.avoid, h.cleanup, h.del, h.cleaned, h.nzb, h.discarded, h.kept, h.old, fun hp i hi => ?_⟩
  rcases h.ids hp i hi with ⟨f, hf, rfl⟩ | hd
  · refine Or.inl ⟨_, List.mem_map.mpr ⟨f, hf, rfl⟩, ?_⟩
    split
    · exact hg f
    · rfl
  · exact Or.inr hd

theorem deleteEntry_waits {c : Config} {good : Bool} {a : Act} {j0 j : Job} {id : Nat} {rest : List Nat} (h : Waits c a j0 (id :: rest) j)
    (hb : reason a j0 ≠ .health) (hb2 : reason a j0 ≠ .bad) :
    Waits c a j0 rest (deleteEntry c good j id) ∨ Ends c a j0 (deleteEntry c good j id) := by
  unfold deleteEntry
  split
  · rename_i hf
    left
    refine { h with files := { h.files with todo := fun f hm hd => ?_ } }
    rcases List.mem_cons.mp (h.files.todo f hm hd) with hi | hi
    · rw [List.find?_eq_none] at hf
      have := hf f hm
      simp [hi] at this
    · exact hi
  · rename_i f hf
    have ⟨hm, hi⟩ := find_mem hf
    split
    · rename_i hdel
      left
      refine { h with files := { h.files with todo := fun g hg hd => ?_ } }
      rcases List.mem_cons.mp (h.files.todo g hg hd) with hi' | hi'
      · have := same_file h.files.nodup hg hm (hi'.trans hi.symm)
        rw [this, hdel] at hd
        cases hd
      · exact hi'
    · have hcore : Core c a j0 (setFile f.id (fun f => { f with deleted := true }) j) := core_set h.core f.id (fun f => { f with deleted := true }) (fun _ => rfl) j.success
      have hfr : Fresh j0 (setFile f.id (fun f => { f with deleted := true }) j) none := h.fresh
      have hfil : (setFile f.id (fun f => { f with deleted := true }) j).files.filter (fun g => g.id != f.id) = j.files.filter (fun g => g.id != f.id) :=
        filter_set f.id (fun f => { f with deleted := true }) (fun _ => rfl) j.files
      have hrest : Files rest (j.files.filter (fun g => g.id != f.id)) := by
        refine { files_filter h.files _ with todo := fun g hg hd => ?_ }
        rw [List.mem_filter] at hg
        rcases List.mem_cons.mp (h.files.todo g hg.1 hd) with hi' | hi'
        · have := hg.2; simp [hi', hi] at this
        · exact hi'
      unfold deleteQueueEntry
      dsimp only
      split
      · exact remove_ends rfl hcore hfr (by rw [hfil]; exact hrest) (h.files.plain f hm) hb hb2
      · rename_i hact
        left
        refine ⟨hcore, hfr, ⟨?_, ?_, ?_, ?_⟩, ?_⟩
        · rw [show (setFile f.id (fun f => { f with deleted := true }) j).files.map (·.id) = _ from
            setFile_ids f.id (fun f => { f with deleted := true }) (fun _ => rfl) j.files]
          exact h.files.nodup
        · intro g hg
          obtain ⟨g', hg', rfl⟩ := List.mem_map.mp hg
          split
          · exact h.files.plain g' hg'
          · exact h.files.plain g' hg'
        · intro g hg hd
          obtain ⟨g', hg', rfl⟩ := List.mem_map.mp hg
          by_cases hx : g'.id = f.id
          · rw [if_pos hx]
            have := same_file h.files.nodup hg' hm hx
            subst this
            exact Nat.pos_of_ne_zero hact
          · rw [if_neg hx] at hd ⊢
            exact h.files.runs g' hg' hd
        · intro g hg hd
          obtain ⟨g', hg', rfl⟩ := List.mem_map.mp hg
          by_cases hx : g'.id = f.id
          · rw [if_pos hx] at hd; cases hd
          · rw [if_neg hx] at hd ⊢
            rcases List.mem_cons.mp (h.files.todo g' hg' hd) with hi' | hi'
            · exact absurd (hi'.trans hi.symm) hx
            · exact hi'
        · intro he; exact h.some (List.map_eq_nil_iff.mp he)

theorem fold_ends {c : Config} {good : Bool} {a : Act} {j0 : Job} (hb : reason a j0 ≠ .health) (hb2 : reason a j0 ≠ .bad) (ids : List Nat) {j : Job}
    (h : Waits c a j0 ids j) : Waits c a j0 [] (ids.foldl (deleteEntry c good) j) ∨ Ends c a j0 (ids.foldl (deleteEntry c good) j) := by
  induction ids generalizing j with
  | nil => exact Or.inl h
  | cons i is ih =>
    rw [List.foldl_cons]
    rcases deleteEntry_waits (good := good) h hb hb2 with h' | h'
    · exact ih h'
    · rw [fold_same is (by rw [h'.files]; exact nofun)]
      exact Or.inr h'

theorem has_self {c : Config} {a : Act} {j : Job} (hq : j.place = .queue) : Core c a j (mark c a j) :=
  ⟨hq, rfl, rfl, rfl, rfl, rfl, rfl, rfl, fun _ h => h, fun l0 h => ⟨l0, h, fun _ h => h⟩, fun _ _ h => h⟩

theorem ends_left {c : Config} {a : Act} {j0 j : Job} (h : Ends c a j0 j) : j.place ≠ .queue ∧ j.place ≠ .post := by
  rw [h.place]; split <;> exact ⟨nofun, nofun⟩

theorem editGroup_ends {c : Config} {good : Bool} {a : Act} {j : Job} (hq : j.place = .queue) (hn : Normal j) (hd : ∀ f ∈ j.files, f.dupe = false)
    (hf : j.files ≠ [] ∨ a ≠ .park) (hb : reason a j ≠ .health) (hb2 : reason a j ≠ .bad) :
    Waits c a j [] (editGroup c good a j) ∨ Ends c a j (editGroup c good a j) := by
  have hfresh : Fresh j (mark c a j) none := fun l e hl he => Or.inl ⟨l, hl, he⟩
  unfold editGroup
  dsimp only
  by_cases hne : j.files = []
  · rw [hne, List.map_nil, List.foldl_nil, if_pos]
    · exact Or.inr (deleted_ends (has_self hq) hfresh hb hb2)
    · have hx : a ≠ .park := hf.resolve_left (fun h => h hne)
      have h1 : (mark c a j).files.isEmpty = true := by show j.files.isEmpty = true; rw [hne]; rfl
      have h2 : (mark c a j).place = .queue := hq
      cases a <;> simp_all [mark]
  · have hw : Waits c a j (j.files.map (·.id)) (mark c a j) :=
      ⟨has_self hq, hfresh, ⟨hn.nodup, hd, hn.runs, fun f hf _ => List.mem_map.mpr ⟨f, hf, rfl⟩⟩, hne⟩
    rcases fold_ends (good := good) hb hb2 _ hw with h | h
    · rw [if_neg]
      · exact Or.inl h
      · intro hx
        simp only [Bool.and_eq_true, List.isEmpty_iff] at hx
        exact h.some hx.2
    · rw [if_neg]
      · exact Or.inr h
      · intro hx
        simp only [Bool.and_eq_true, beq_iff_eq] at hx
        exact (ends_left h).1 hx.1.1.2

/-- Events other than commands, duplicates found and actions of the health check. -/
def Quiet : Ev → Prop
  | .delete _ => False
  | .ended _ _ _ dupe _ low => dupe = false ∧ low = none
  | _ => True

theorem ends_fixed {c : Config} {good : Bool} {a : Act} {j0 j : Job} (h : Ends c a j0 j) (e : Ev) : step c good j e = j := by
  have ⟨h1, h2⟩ := ends_left h
  have hp : ¬ (j.place = .queue ∨ j.place = .post) := fun hx => hx.elim h1 h2
  cases e with
  | delete a => unfold step; dsimp only; rw [if_neg hp]
  | start id => unfold step; dsimp only; rw [if_neg (fun hx => hp hx.1)]
  | ended id ok all dupe cf low => unfold step; dsimp only; rw [h.files]; rfl
  | written id name => unfold step; dsimp only; rw [h.files]; rfl
  | post => unfold step; dsimp only; rw [if_neg h2]

theorem waits_deleted {c : Config} {a : Act} {j0 j : Job} (h : Waits c a j0 [] j) {f : File} (hf : f ∈ j.files) : f.deleted = true := by
  cases hdel : f.deleted with
  | true => rfl
  | false => exact absurd (h.files.todo f hf hdel) List.not_mem_nil

theorem set_waits {c : Config} {a : Act} {j0 j : Job} (h : Waits c a j0 [] j) (id : Nat) (g : File → File) (n : Nat) (hi : ∀ f, (g f).id = f.id)
    (hdel : ∀ f, f.deleted = true → (g f).deleted = true) (hdu : ∀ f, f.dupe = false → (g f).dupe = false) (ha : ∀ f, f.id = id → f ∈ j.files → 0 < (g f).active) :
    Waits c a j0 [] (setFile id g { j with success := n }) := by
  refine ⟨core_set h.core id g hi n, h.fresh, ⟨?_, ?_, ?_, ?_⟩, fun he => h.some (List.map_eq_nil_iff.mp he)⟩
  · rw [show (setFile id g { j with success := n }).files.map (·.id) = _ from setFile_ids id g hi j.files]; exact h.files.nodup
  · intro f hf
    obtain ⟨f', hf', rfl⟩ := List.mem_map.mp hf
    split
    · exact hdu f' (h.files.plain f' hf')
    · exact h.files.plain f' hf'
  · intro f hf _
    obtain ⟨f', hf', rfl⟩ := List.mem_map.mp hf
    by_cases hx : f'.id = id
    · rw [if_pos hx]; exact ha f' hx hf'
    · rw [if_neg hx]; exact h.files.runs f' hf' (waits_deleted h hf')
  · intro f hf hd
    obtain ⟨f', hf', rfl⟩ := List.mem_map.mp hf
    by_cases hx : f'.id = id
    · rw [if_pos hx, hdel f' (waits_deleted h hf')] at hd; cases hd
    · rw [if_neg hx, waits_deleted h hf'] at hd; cases hd

theorem step_ends {c : Config} {good : Bool} {a : Act} {j0 j : Job} (hb : reason a j0 ≠ .health) (hb2 : reason a j0 ≠ .bad) (e : Ev) (he : Quiet e)
    (h : Waits c a j0 [] j) : Waits c a j0 [] (step c good j e) ∨ Ends c a j0 (step c good j e) := by
  cases e with
  | delete a => exact he.elim
  | start id =>
    unfold step
    dsimp only
    rw [if_neg]
    · exact Or.inl h
    · intro hx
      obtain ⟨f, hf, hd⟩ := List.any_eq_true.mp hx.2
      rw [waits_deleted h hf] at hd
      cases hd
  | ended id ok all dupe cf low =>
    obtain ⟨rfl, rfl⟩ := he
    unfold step
    dsimp only
    split
    · exact Or.inl h
    · rename_i f0 hf0
      split
      · exact Or.inl h
      · unfold articleEnded health
        dsimp only
        have h3 : Waits c a j0 [] (noted f0.id ok false cf j) :=
          set_waits h _ _ _ (fun _ => rfl) (fun f hf => by simp [hf]) (fun f hf => by simp [hf]) (fun f _ hm => h.files.runs f hm (waits_deleted h hm))
        generalize noted f0.id ok false cf j = j3 at h3
        unfold settle
        split
        · exact Or.inl h3
        · rename_i f hf
          have ⟨hm, hi⟩ := find_mem hf
          dsimp only
          split
          · exact Or.inl (set_waits h3 f.id _ j3.success (fun _ => rfl) (fun _ hf => hf) (fun _ hf => hf) (fun f _ hm => h3.files.runs f hm (waits_deleted h3 hm)))
          · by_cases ha : f.active = 1
            · rw [if_pos (by simp [waits_deleted h3 hm, ha])]
              refine remove_ends (f := { f with active := 0 }) (j := setFile f.id (fun f => { f with active := f.active - 1 }) j3) rfl
                (core_set h3.core f.id (fun f => { f with active := f.active - 1 }) (fun _ => rfl) j3.success) h3.fresh ?_ (h3.files.plain f hm) hb hb2
              rw [show (setFile f.id (fun f => { f with active := f.active - 1 }) j3).files.filter (fun g => g.id != f.id) = _ from
                filter_set f.id (fun f => { f with active := f.active - 1 }) (fun _ => rfl) j3.files]
              exact files_filter h3.files _
            · rw [if_neg (by simp [ha])]
              left
              refine set_waits h3 f.id _ j3.success (fun _ => rfl) (fun _ hf => hf) (fun _ hf => hf) (fun g hg hgm => ?_)
              have := same_file h3.files.nodup hgm hm hg
              subst this
              have := h3.files.runs g hm (waits_deleted h3 hm)
              show 0 < g.active - 1
              omega
  | written id name =>
    unfold step
    dsimp only
    split
    · exact Or.inl h
    · rename_i f hf
      have ⟨hm, hi⟩ := find_mem hf
      split
      · unfold fileWritten
        dsimp only
        refine remove_ends (f := { f with name := name, active := 0 }) (by simp [waits_deleted h hm]) ?_ ?_ (files_filter h.files _) (h.files.plain f hm) hb hb2
        · refine ⟨h.core.place, h.core.parking, h.core.avoid, h.core.cleanup, h.core.del, h.core.cleaned, h.core.nzb, h.core.discarded, h.core.kept, ?_, h.core.ids⟩
          intro l0 hl0
          obtain ⟨l, hl, hs⟩ := h.core.old l0 hl0
          dsimp only
          rw [hl]
          refine ⟨_, rfl, fun e he => ?_⟩
          split
          · exact hs e he
          · exact List.mem_append_left _ (hs e he)
        · intro l e hl he
          dsimp only at hl
          have hfr := h.fresh
          cases hjd : j.dir with
          | none =>
            rw [hjd] at hl
            have := Option.some.inj hl
            subst this
            rcases List.mem_cons.mp he with rfl | he
            · exact Or.inr ⟨rfl, Or.inr rfl⟩
            · cases he
          | some l1 =>
            rw [hjd] at hl
            have := Option.some.inj hl
            subst this
            have old : e ∈ l1 → _ := fun he => hfr l1 e hjd he
            have fin : e ∈ l1 ∨ e = ⟨name, .file⟩ := by
              split at he
              · exact Or.inl he
              · rcases List.mem_append.mp he with he | he
                · exact Or.inl he
                · exact Or.inr (List.mem_singleton.mp he)
            rcases fin with he | rfl
            · rcases old he with h | ⟨h1, h | h⟩
              · exact Or.inl h
              · exact Or.inr ⟨h1, Or.inl h⟩
              · cases h
            · exact Or.inr ⟨rfl, Or.inr rfl⟩
      · exact Or.inl h
  | post =>
    unfold step
    dsimp only
    rw [if_neg (by rw [h.core.place]; exact nofun)]
    exact Or.inl h

theorem exec_ends {c : Config} {good : Bool} {a : Act} {j0 : Job} (hb : reason a j0 ≠ .health) (hb2 : reason a j0 ≠ .bad) (evs : List Ev) (hq : ∀ e ∈ evs, Quiet e)
    {j : Job} (h : Waits c a j0 [] j ∨ Ends c a j0 j) : Waits c a j0 [] (exec c good j evs) ∨ Ends c a j0 (exec c good j evs) := by
  induction evs generalizing j with
  | nil => exact h
  | cons e es ih =>
    refine ih (fun e he => hq e (List.mem_cons_of_mem _ he)) ?_
    rcases h with h | h
    · exact step_ends hb hb2 e (hq e List.mem_cons_self) h
    · rw [ends_fixed h e]; exact Or.inr h

/-- **How a deletion ends**: unless a file turns out to be a duplicate or the health check acts meanwhile, a deleted download is, in every order in which
the downloads of its articles end, either still waiting for one of them, with all it had in its directory, or it has ended as the command says (`Ends`). -/
theorem outcome {c : Config} {good : Bool} {a : Act} {j : Job} (hq : j.place = .queue) (hn : Normal j) (hd : ∀ f ∈ j.files, f.dupe = false)
    (hf : j.files ≠ [] ∨ a ≠ .park) (hb : reason a j ≠ .health) (hb2 : reason a j ≠ .bad) (evs : List Ev) (hev : ∀ e ∈ evs, Quiet e) :
    let j' := exec c good j (.delete a :: evs)
    (j'.place = .queue ∧ (∃ f ∈ j'.files, 0 < f.active) ∧ ∀ l, j.dir = some l → ∃ l', j'.dir = some l' ∧ ∀ e ∈ l, e ∈ l') ∨ Ends c a j j' := by
  dsimp only
  have h0 : step c good j (.delete a) = editGroup c good a j := by
    unfold step; dsimp only; rw [if_pos (Or.inl hq)]
  rcases exec_ends (good := good) hb hb2 evs hev (h0 ▸ editGroup_ends (good := good) hq hn hd hf hb hb2) with h | h
  · left
    change Waits c a j [] (exec c good j (.delete a :: evs)) at h
    obtain ⟨f, hm⟩ := List.exists_mem_of_ne_nil _ h.some
    exact ⟨h.core.place, ⟨f, hm, h.files.runs f hm (waits_deleted h hm)⟩, h.core.old⟩
  · exact Or.inr h

/-! ### What is not of the download stays -/

/-- A name of the directory which has nothing to do with the download. -/
structure Foreign (e : Ent) (j : Job) : Prop where
  there : ∃ l, j.dir = some l ∧ e ∈ l
  done : ∀ d ∈ j.completed, d.name ≠ e.name
  files : ∀ f ∈ j.files, f.name ≠ e.name

theorem foreign_completed {c : Config} {good : Bool} {e : Ent} {j : Job} (h : Foreign e j) : Foreign e (nzbCompleted c good j) := by
  unfold nzbCompleted addToHistory
  dsimp only
  cases (decide (c.keep > 0) && !j.avoid) with
  | false => exact ⟨h.there, h.done, nofun⟩
  | true =>
    refine ⟨h.there, ?_, nofun⟩
    intro d hd
    simp only [if_true] at hd
    split at hd
    · cases hd
    · rcases List.mem_append.mp hd with hd | hd
      · exact h.done d hd
      · obtain ⟨f, hf, rfl⟩ := List.mem_map.mp hd
        exact h.files f hf

theorem foreign_downloaded {c : Config} {good : Bool} {e : Ent} {j : Job} (h : Foreign e j) : Foreign e (nzbDownloaded c good j) := by
  unfold nzbDownloaded
  split
  · exact ⟨h.there, h.done, h.files⟩
  · exact foreign_completed h

theorem foreign_deleted {c : Config} {good : Bool} {e : Ent} {j : Job} (ht : isTemp e.name = true → e.kind = .fullDir) (hh : e.name.head? ≠ some 46)
    (h : Foreign e j) : Foreign e (nzbDeleted c good j) := by
  have h1 : Foreign e (deleteCleanup (setDeleted j)) := by
    unfold deleteCleanup
    split
    · refine ⟨?_, h.done, h.files⟩
      obtain ⟨l, hl, he⟩ := h.there
      show ∃ l', j.dir.bind (sweep j.completed) = some l' ∧ e ∈ l'
      rw [hl]
      exact sweep_stays he h.done ht hh
    · exact ⟨h.there, h.done, h.files⟩
  unfold nzbDeleted
  dsimp only
  split
  · exact foreign_downloaded h1
  · exact foreign_completed h1

section
variable {c : Config} {good : Bool} {e : Ent} (ht : isTemp e.name = true → e.kind = .fullDir) (hh : e.name.head? ≠ some 46)
include ht hh

theorem foreign_gone {completed : Bool} {f : File} {j : Job} (h : Foreign e j) : Foreign e (fileGone c good completed f j) := by
  unfold fileGone
  split
  · exact h
  · split
    · exact foreign_downloaded h
    · split
      · exact foreign_deleted ht hh h
      · exact h

theorem foreign_fileInfo {completed : Bool} {f : File} {j : Job} (hf : f.name ≠ e.name) (h : Foreign e j) :
    Foreign e (deleteFileInfo c good completed f j) := by
  unfold deleteFileInfo
  have h1 : Foreign e { j with
      files := j.files.filter (fun g => g.id != f.id)
      completed := if completed || j.parking then j.completed ++ [⟨f.id, f.name, f.cf⟩] else j.completed } := by
    refine ⟨h.there, ?_, fun g hg => h.files g (List.mem_filter.mp hg).1⟩
    intro d hd
    dsimp only at hd
    split at hd
    · rcases List.mem_append.mp hd with hd | hd
      · exact h.done d hd
      · rw [List.mem_singleton.mp hd]; exact hf
    · exact h.done d hd
  exact foreign_gone ht hh h1

omit ht hh in
theorem foreign_set {j : Job} (id : Nat) (g : File → File) (hg : ∀ f, (g f).name = f.name) (h : Foreign e j) : Foreign e (setFile id g j) := by
  refine ⟨h.there, h.done, fun f hf => ?_⟩
  obtain ⟨f', hf', rfl⟩ := List.mem_map.mp hf
  split
  · rw [hg]; exact h.files f' hf'
  · exact h.files f' hf'

theorem foreign_entry {j : Job} (id : Nat) (h : Foreign e j) : Foreign e (deleteEntry c good j id) := by
  unfold deleteEntry
  split
  · exact h
  · rename_i f hf
    split
    · exact h
    · unfold deleteQueueEntry
      dsimp only
      have h1 := foreign_set f.id (fun f => { f with deleted := true }) (fun _ => rfl) h
      split
      · exact foreign_fileInfo ht hh (h.files f (find_mem hf).1) h1
      · exact h1

theorem foreign_fold (ids : List Nat) {j : Job} (h : Foreign e j) : Foreign e (ids.foldl (deleteEntry c good) j) := by
  induction ids generalizing j with
  | nil => exact h
  | cons i is ih => exact ih (foreign_entry ht hh i h)

theorem foreign_edit {a : Act} {j : Job} (h : Foreign e j) : Foreign e (editGroup c good a j) := by
  have h1 : Foreign e ((j.files.map (·.id)).foldl (deleteEntry c good) (mark c a j)) := foreign_fold ht hh _ ⟨h.there, h.done, h.files⟩
  unfold editGroup
  dsimp only
  split
  · exact foreign_deleted ht hh h1
  · exact h1

theorem foreign_step {j : Job} (ev : Ev) (hw : ∀ id n, ev = .written id n → n ≠ e.name) (h : Foreign e j) : Foreign e (step c good j ev) := by
  cases ev with
  | delete a =>
    unfold step
    dsimp only
    split
    · exact foreign_edit ht hh h
    · exact h
  | start id =>
    unfold step
    dsimp only
    split
    · exact foreign_set _ _ (fun f => by split <;> rfl) h
    · exact h
  | ended id ok all dupe cf low =>
    unfold step
    dsimp only
    split
    · exact h
    · rename_i f0 _
      split
      · exact h
      · unfold articleEnded
        have h2 : Foreign e (noted f0.id ok dupe cf j) := by
          unfold noted
          exact foreign_set _ _ (fun _ => rfl) ⟨h.there, h.done, h.files⟩
        have h3 : Foreign e (health c good low (noted f0.id ok dupe cf j)) := by
          unfold health checkHealth
          split
          · exact h2
          · split
            · exact h2
            · exact foreign_edit ht hh ⟨h2.there, h2.done, h2.files⟩
        generalize health c good low (noted f0.id ok dupe cf j) = j3 at h3
        unfold settle
        split
        · exact h3
        · rename_i f hf
          dsimp only
          split
          · exact foreign_set _ _ (fun _ => rfl) h3
          · split
            · exact foreign_fileInfo ht hh (h3.files f (find_mem hf).1) (foreign_set _ _ (fun _ => rfl) h3)
            · exact foreign_set _ _ (fun _ => rfl) h3
  | written id name =>
    unfold step
    dsimp only
    split
    · exact h
    · split
      · unfold fileWritten
        dsimp only
        refine foreign_fileInfo ht hh (hw id name rfl) ⟨?_, h.done, h.files⟩
        obtain ⟨l, hl, he⟩ := h.there
        dsimp only
        rw [hl]
        refine ⟨_, rfl, ?_⟩
        split
        · exact he
        · exact List.mem_append_left _ he
      · exact h
  | post =>
    unfold step
    dsimp only
    split
    · exact foreign_completed h
    · exact h

/-- **Nothing else is deleted**: whatever happens, a name of the directory stays which is no file of the download (not a completed one, not one of the
list, none which is written meanwhile), no temporary file and not hidden. -/
theorem foreign_stays {j : Job} (evs : List Ev) (hw : ∀ id n, Ev.written id n ∈ evs → n ≠ e.name) (h : Foreign e j) : Foreign e (exec c good j evs) := by
  induction evs generalizing j with
  | nil => exact h
  | cons ev es ih =>
    exact ih (fun id n hm => hw id n (List.mem_cons_of_mem _ hm)) (foreign_step ht hh ev (fun id n he => hw id n (he ▸ List.mem_cons_self)) h)

end

/-! ### A download which is being post-processed -/

/-! ### Single files -/

theorem completed_files (c : Config) (good : Bool) (j : Job) : (nzbCompleted c good j).files = [] := by
  unfold nzbCompleted addToHistory
  dsimp only
  cases hk : (decide (c.keep > 0) && !j.avoid) <;> simp

theorem downloaded_files (c : Config) (good : Bool) (j : Job) {g : File} (h : g ∈ (nzbDownloaded c good j).files) : g ∈ j.files := by
  unfold nzbDownloaded at h
  split at h
  · exact h
  · rw [completed_files] at h; exact nomatch h

theorem deleted_files (c : Config) (good : Bool) (j : Job) {g : File} (h : g ∈ (nzbDeleted c good j).files) : g ∈ j.files := by
  unfold nzbDeleted at h
  dsimp only at h
  split at h
  · have := downloaded_files _ _ _ h
    have e : ∀ k : Job, (deleteCleanup k).files = k.files := by intro k; unfold deleteCleanup; split <;> rfl
    rw [e] at this
    unfold setDeleted at this
    split at this <;> exact this
  · rw [completed_files] at h; exact nomatch h

theorem gone_files (c : Config) (good completed : Bool) (f : File) (j : Job) {g : File} (h : g ∈ (fileGone c good completed f j).files) : g ∈ j.files := by
  unfold fileGone at h
  split at h
  · exact h
  · split at h
    · exact downloaded_files _ _ _ h
    · split at h
      · exact deleted_files _ _ _ h
      · exact h

theorem info_files (c : Config) (good completed : Bool) (f : File) (j : Job) {g : File} (h : g ∈ (deleteFileInfo c good completed f j).files) :
    g.id ≠ f.id := by
  unfold deleteFileInfo at h
  have := gone_files _ _ _ _ _ h
  have := (List.mem_filter.1 this).2
  simpa using this

theorem find_noted {j : Job} {f : File} (hf : j.files.find? (fun g => g.id == f.id) = some f) (ok dupe : Bool) (cf : Cf) :
    (noted f.id ok dupe cf j).files.find? (fun g => g.id == f.id) = some { f with cf := cf, dupe := f.dupe || dupe, deleted := f.deleted || dupe } := by
  unfold noted setFile
  dsimp only
  generalize j.files = l at hf
  induction l with
  | nil => simp at hf
  | cons x l ih =>
    rw [List.find?_cons] at hf
    rw [List.map_cons, List.find?_cons]
    by_cases hx : x.id = f.id
    · simp only [hx, beq_self_eq_true, Option.some.injEq] at hf
      subst hf
      simp
    · have hb : (x.id == f.id) = false := by simpa using hx
      rw [hb] at hf
      simp only [hx, if_false, hb]
      exact ih hf

/-- C139: when the last running download of a file ends which is deleted, or which turns out to be a duplicate, the file is removed from the
download and not written, unless the download is parked. -/
theorem deleted_file_dropped (c : Config) (good : Bool) (j : Job) (f : File) (ok all dupe : Bool) (cf : Cf)
    (hf : j.files.find? (fun g => g.id == f.id) = some f) (ha : f.active = 1) (hp : j.parking = false) (hd : f.deleted = true ∨ dupe = true) :
    ∀ g ∈ (articleEnded c good f ok all dupe cf none j).files, g.id ≠ f.id := by
  intro g hg
  unfold articleEnded health settle at hg
  rw [find_noted hf] at hg
  have hpk : (noted f.id ok dupe cf j).parking = false := hp
  have hdd : (f.deleted || dupe) = true := by rcases hd with q | q <;> simp [q]
  dsimp only at hg
  rw [hpk, hdd] at hg
  simp only [ha, Bool.not_true, Bool.or_false, Bool.and_false, Bool.false_eq_true, if_false, Bool.true_and, beq_self_eq_true, if_true] at hg
  have := info_files _ _ _ _ _ hg
  exact this

/-- C139: of a parked download the file is written with what was downloaded of it, unless it is a duplicate. -/
theorem parked_file_written (c : Config) (good : Bool) (j : Job) (f : File) (ok all : Bool) (cf : Cf)
    (hf : j.files.find? (fun g => g.id == f.id) = some f) (ha : f.active = 1) (hp : j.parking = true) (hd : f.dupe = false) :
    ∃ g ∈ (articleEnded c good f ok all false cf none j).files, g.id = f.id ∧ g.writing = true := by
  unfold articleEnded health settle
  rw [find_noted hf]
  have hpk : (noted f.id ok false cf j).parking = true := hp
  have hm := (find_mem (find_noted hf ok false cf)).1
  dsimp only
  rw [hpk]
  simp only [ha, hd, Bool.or_false, Bool.not_false, Bool.and_true, beq_self_eq_true, Bool.or_true, if_true]
  refine ⟨_, List.mem_map.2 ⟨_, hm, rfl⟩, ?_⟩
  simp

/-- A command for a download in post-processing doesn't end it: … -/
theorem post_goes_on {c : Config} {good : Bool} {a : Act} {j : Job} (hp : j.place = .post) : (step c good j (.delete a)).place = .post := by
  have fi : ∀ (completed : Bool) (f : File) (j : Job), j.place = .post → (deleteFileInfo c good completed f j).place = .post := by
    intro completed f j h
    unfold deleteFileInfo fileGone
    rw [if_pos (by show (j.place == _) = true; rw [h]; rfl)]
    exact h
  have en : ∀ (j : Job) (id : Nat), j.place = .post → (deleteEntry c good j id).place = .post := by
    intro j id h
    unfold deleteEntry
    split
    · exact h
    · split
      · exact h
      · unfold deleteQueueEntry
        dsimp only
        split
        · exact fi _ _ _ h
        · exact h
  have fo : ∀ (ids : List Nat) (j : Job), j.place = .post → (ids.foldl (deleteEntry c good) j).place = .post := by
    intro ids
    induction ids with
    | nil => intro j h; exact h
    | cons i is ih => intro j h; exact ih _ (en j i h)
  unfold step
  dsimp only
  rw [if_pos (Or.inr hp)]
  unfold editGroup
  dsimp only
  have h1 := fo (j.files.map (·.id)) (mark c a j) hp
  rw [if_neg (by rw [h1]; simp)]
  exact h1

/-- … but the command "final" makes that nothing is kept of it in the history when it ends. -/
theorem post_final {c : Config} {good : Bool} {j : Job} (hp : j.place = .post) : (exec c good j [.delete .final, .post]).place = .gone := by
  have h1 := post_goes_on (c := c) (good := good) (a := .final) hp
  have fi : ∀ (completed : Bool) (f : File) (j : Job), j.place = .post → (deleteFileInfo c good completed f j).avoid = j.avoid ∧ (deleteFileInfo c good completed f j).place = .post := by
    intro completed f j h
    unfold deleteFileInfo fileGone
    rw [if_pos (by show (j.place == _) = true; rw [h]; rfl)]
    exact ⟨rfl, h⟩
  have en : ∀ (j : Job) (id : Nat), j.place = .post → (deleteEntry c good j id).avoid = j.avoid ∧ (deleteEntry c good j id).place = .post := by
    intro j id h
    unfold deleteEntry
    split
    · exact ⟨rfl, h⟩
    · split
      · exact ⟨rfl, h⟩
      · unfold deleteQueueEntry
        dsimp only
        split
        · exact fi _ _ _ h
        · exact ⟨rfl, h⟩
  have fo : ∀ (ids : List Nat) (j : Job), j.place = .post → (ids.foldl (deleteEntry c good) j).avoid = j.avoid := by
    intro ids
    induction ids with
    | nil => intro j _; rfl
    | cons i is ih => intro j h; exact (ih _ (en j i h).2).trans (en j i h).1
  have h2 : (step c good j (.delete .final)).avoid = true := by
    unfold step
    dsimp only
    rw [if_pos (Or.inr hp)]
    unfold editGroup
    dsimp only
    have h3 : (step c good j (.delete .final)).place = .post := h1
    unfold step editGroup at h3
    dsimp only at h3
    rw [if_pos (Or.inr hp)] at h3
    split
    · rename_i hx
      rw [if_pos hx] at h3
      simp only [Bool.and_eq_true, beq_iff_eq] at hx
      have := (deleted_left c good ((j.files.map (·.id)).foldl (deleteEntry c good) (mark c .final j)))
      have hq := hx.1.1.2
      have hpp : ((j.files.map (·.id)).foldl (deleteEntry c good) (mark c .final j)).place = .post := by
        clear hx hq this h3 h1
        have : ∀ (ids : List Nat) (j : Job), j.place = .post → (ids.foldl (deleteEntry c good) j).place = .post := by
          intro ids
          induction ids with
          | nil => intro j h; exact h
          | cons i is ih => intro j h; exact ih _ (en j i h).2
        exact this _ _ hp
      rw [hpp] at hq; cases hq
    · exact fo _ (mark c .final j) hp
  show (step c good (step c good j (.delete .final)) .post).place = .gone
  generalize step c good j (.delete .final) = k at h1 h2
  unfold step
  dsimp only
  rw [if_pos h1]
  unfold nzbCompleted
  dsimp only
  rw [h2]
  simp

/-! ### Orders of events in which a command isn't obeyed -/

/-- A download with two files, one running; a file is complete; there is a foreign file. -/
def sample : Job :=
  { files := [{ id := 1, name := lit "a.r01", active := 1, cf := .partly }, { id := 2, name := lit "a.r02" }]
    completed := [⟨3, lit "a.rar", .success⟩]
    success := 7
    dir := some [⟨lit "a.rar", .file⟩, ⟨lit "1.out.tmp", .file⟩, ⟨lit "note.txt", .file⟩] }

def conf : Config := ⟨30, true, false⟩

/-- **A deleted download is post-processed**: if the article which ends behind the command shows that its file is a duplicate, the download doesn't
end as the command says but goes to post-processing, and its files stay. -/
theorem dupe_after_delete : (exec conf true sample [.delete .plain, .ended 1 true false true .partly none]).place = .post ∧
    (exec conf true sample [.delete .plain, .ended 1 true false true .partly none]).dir = sample.dir := by decide +kernel

/-- **A finally deleted download comes into the history**: if the article which ends behind the command makes the health too low, the health check deletes the
download again, in its own way: it is post-processed and then kept in the history. -/
theorem health_after_final : (exec conf true sample [.delete .final, .ended 1 false false false .partly (some .plain)]).place = .post ∧
    (exec conf true sample [.delete .final, .ended 1 false false false .partly (some .plain), .post]).place = .history := by decide +kernel

/-- The conditions are met, and the cases differ. -/
example : Normal sample := ⟨by decide +kernel, by decide +kernel⟩
example : (exec conf true sample [.delete .plain]).place = .queue ∧
    (exec conf true sample [.delete .plain, .ended 1 false false false .partly none]).place = .history ∧
    (exec conf true sample [.delete .plain, .ended 1 false false false .partly none]).dir = some [⟨lit "note.txt", .file⟩] ∧
    (exec conf true sample [.delete .plain, .ended 1 false false false .partly none]).del = .manual := by decide +kernel
example : (exec conf true sample [.delete .final, .ended 1 false false false .partly none]).place = .gone ∧
    (exec conf true sample [.delete .final, .ended 1 false false false .partly none]).nzb = false := by decide +kernel
example : (exec conf true sample [.delete .park, .ended 1 true false false .partly none, .written 1 (lit "a.r01")]).completed =
    [⟨3, lit "a.rar", .success⟩, ⟨2, lit "a.r02", .none⟩, ⟨1, lit "a.r01", .partly⟩] ∧
    (exec conf true sample [.delete .park, .ended 1 true false false .partly none, .written 1 (lit "a.r01")]).place = .history ∧
    (exec conf true sample [.delete .park, .ended 1 true false false .partly none, .written 1 (lit "a.r01")]).discarded = false := by decide +kernel
example : parks conf .park sample = true ∧ reason .park sample = .none := by decide +kernel
example : Foreign ⟨lit "note.txt", .file⟩ sample := ⟨⟨_, rfl, by decide +kernel⟩, by decide +kernel, by decide +kernel⟩
example : isTemp (lit "1.out.tmp") = true ∧ isTemp (lit ".out.tmp") = false := by decide +kernel
example : sample.files.find? (fun g => g.id == 1) = some { id := 1, name := lit "a.r01", active := 1, cf := .partly } ∧
    (articleEnded conf true { id := 1, name := lit "a.r01", active := 1, cf := .partly } true false true .partly none sample).files.map (·.id) = [2] ∧
    (articleEnded conf true { id := 1, name := lit "a.r01", active := 1, cf := .partly } true false false .partly none
      { sample with parking := true }).files.map (fun g => (g.id, g.writing)) = [(1, true), (2, false)] := by decide +kernel

end Verif.DeleteJob
