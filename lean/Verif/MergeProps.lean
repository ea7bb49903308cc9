/-
C22: merging queue entries.
-/
import Verif.SplitProps

namespace Verif.Counters

variable {dirOf : String → String → Nat → String}

/-- Entries which can be merged: both are nzb-files and not in post-processing. -/
def mergeable (d s : Nzb) : Bool := !d.post && !s.post && !d.url && !s.url

theorem merge_refused {d s : Nzb} : mergeEntries dirOf d s = none ↔ mergeable d s = false := by
  unfold mergeEntries mergeable
  cases d.post <;> cases s.post <;> cases d.url <;> cases s.url <;> simp

/-- The counters of the merged entry with the number of extra priority files put right. -/
theorem good_merge {d s m : Nzb} {dd ds : List File} (hd : Good d dd) (hs : Good s ds) (h : mergeEntries dirOf d s = some m) :
    Good { m with extra := d.extra + s.extra } (dd ++ ds) ∧ m.extra = d.extra ∧ m.id = d.id ∧ m.files = d.files ++ s.files ∧
    m.post = d.post ∧ m.url = d.url := by
  unfold mergeEntries at h
  split at h
  · cases h
  · split at h
    · cases h
    · injection h with h
      subst h
      refine ⟨?_, rfl, rfl, rfl, rfl, rfl⟩
      obtain ⟨⟨e1, e2, e3, e4, e5, e6, e7, e8, e9, e10, e11, e12, e13⟩, ⟨w1, w2, w3, w4, w5, w6, w7, w8, w9, w10⟩, hz, hy, hu⟩ := hd
      obtain ⟨⟨E1, E2, E3, E4, E5, E6, E7, E8, E9, E10, E11, E12, E13⟩, ⟨W1, W2, W3, W4, W5, W6, W7, W8, W9, W10⟩, hZ, hY, hU⟩ := hs
      unfold setCategory
      refine ⟨?_, ?_, ?_, ?_, nodup_listOp hu⟩
      · constructor <;> (try intro s; have e12 := e12 s; have e13 := e13 s; have E12 := E12 s; have E13 := E13 s) <;>
          dsimp only <;> (try simp only [tally_append, fromServer_add, failedOn_add]) <;> omega
      · constructor <;> dsimp only <;> (try simp only [tally_append, List.length_append]) <;> omega
      · intro f hf
        rcases List.mem_append.1 hf with hf | hf
        · exact hz f hf
        · exact hZ f hf
      · intro f hf
        rcases List.mem_append.1 hf with hf | hf
        · exact hy f hf
        · exact hY f hf

/-- **C22, partial.** The entry made of two entries with right counters has the files of both, in this order, the completed files of both, the
sum of every counter and total, and they describe its files - all but one: the number of files with extra priority is that of the first entry. -/
theorem merge_partial {d s : Nzb} {dd ds : List File} (hd : Good d dd) (hs : Good s ds) (hm : mergeable d s = true) :
    ∃ m, mergeEntries dirOf d s = some m ∧ m.files = d.files ++ s.files ∧
      Good { m with extra := d.extra + s.extra } (dd ++ ds) ∧ m.extra = d.extra ∧
      m.fileCount = d.fileCount + s.fileCount ∧ m.size = d.size + s.size ∧ m.remaining = d.remaining + s.remaining ∧
      m.pausedCount = d.pausedCount + s.pausedCount ∧ m.pausedSize = d.pausedSize + s.pausedSize ∧
      m.curSuccess = d.curSuccess + s.curSuccess ∧ m.curFailed = d.curFailed + s.curFailed ∧ m.total = d.total + s.total ∧
      m.downloadedSize = d.downloadedSize + s.downloadedSize := by
  cases h : mergeEntries dirOf d s with
  | none => rw [merge_refused.1 h] at hm; cases hm
  | some m =>
    obtain ⟨g, e, _, f, _⟩ := good_merge hd hs h
    refine ⟨m, rfl, f, g, e, ?_⟩
    unfold mergeEntries at h
    split at h
    · cases h
    · split at h
      · cases h
      · injection h with h
        subst h
        exact ⟨rfl, rfl, rfl, rfl, rfl, rfl, rfl, rfl, rfl⟩

/-- **C22, violation.** The counters of the merged entry are right only if no file of the second entry has extra priority. -/
theorem merge_loses_extra_priority {d s m : Nzb} {dd ds : List File} (hd : Good d dd) (hs : Good s ds) (h : mergeEntries dirOf d s = some m) :
    Good m (dd ++ ds) ↔ ∀ f ∈ s.files, f.extra = false := by
  obtain ⟨g, e, _, f, _⟩ := good_merge hd hs h
  have hsum : ∀ l : List File, 0 ≤ tally (fun f => only f.extra 1) l ∧
      (tally (fun f => only f.extra 1) l = 0 ↔ ∀ f ∈ l, f.extra = false) := by
    intro l
    induction l with
    | nil => exact ⟨by simp [tally], by simp [tally]⟩
    | cons x l ih =>
      rw [tally_cons]
      obtain ⟨i1, i2⟩ := ih
      cases hx : x.extra
      · simp only [only_false, Int.zero_add]
        refine ⟨i1, i2.trans ?_⟩
        simp [hx]
      · simp only [only_true]
        refine ⟨by omega, ?_⟩
        constructor
        · intro h0; omega
        · intro h0
          have := h0 x List.mem_cons_self
          rw [hx] at this
          cases this
  have hse := hs.exact.extra
  constructor
  · intro hg
    have h1 := hg.exact.extra
    have h2 := g.exact.extra
    dsimp only at h2
    apply (hsum s.files).2.1
    omega
  · intro h0
    have := (hsum s.files).2.2 h0
    have e' : d.extra + s.extra = m.extra := by omega
    rw [e'] at g
    exact g

/-- After such a merge the extra priority of the second entry's files has no effect on the entry, and taking it back makes the number
negative. -/
theorem merge_negative_extra {d s m : Nzb} {dd ds : List File} {i : Nat} {f : File} (hd : Good d dd) (hs : Good s ds)
    (h : mergeEntries dirOf d s = some m) (h0 : ∀ f ∈ d.files, f.extra = false) (hf : find i m.files = some f) (he : f.extra = true) :
    m.extra = 0 ∧ (setExtra m i false).extra = -1 := by
  obtain ⟨g, e, _, hfi, _⟩ := good_merge hd hs h
  have hz : d.extra = 0 := by
    rw [hd.exact.extra]
    clear hfi hf e g h hd
    generalize d.files = l at h0
    induction l with
    | nil => rfl
    | cons x l ih =>
      rw [tally_cons, h0 x List.mem_cons_self, only_false, ih (fun f hf => h0 f (List.mem_cons_of_mem _ hf))]
      rfl
  refine ⟨by omega, ?_⟩
  unfold setExtra
  rw [hf]
  dsimp only
  rw [if_pos (by rw [he]; decide)]
  dsimp only
  simp only [Bool.false_eq_true, if_false]
  omega

def mergeExample (id file : Nat) (b : Bool) : Nzb :=
  setExtra (newEntry id [exampleFile file 100 0 false, exampleFile (file + 1) 100 50 true]) file b

example : Good (mergeExample 1 10 false) [] ∧ Good (mergeExample 2 20 true) [] ∧
    mergeable (mergeExample 1 10 false) (mergeExample 2 20 true) = true ∧ ∃ f ∈ (mergeExample 2 20 true).files, f.extra = true := by
  refine ⟨good_extra _ _ (good_newEntry (by simp [Fresh, exampleFile])), good_extra _ _ (good_newEntry (by simp [Fresh, exampleFile])),
    by decide +kernel, by decide +kernel⟩

/-! ### The directory -/

/-- **Violation.** Completed files of the second entry are moved to the directory of the merged entry's category, but not to the
merged entry's directory: unless both are the same, they are left where the post-processing of the merged entry does not look. -/
theorem merge_completed_elsewhere {d s m : Nzb} (h : mergeEntries dirOf d s = some m)
    (hs : ∀ c ∈ s.completed, c.1 = s.dir) :
    m.dir = d.dir ∧ m.completed = d.completed ++ s.completed.map (fun c => (dirOf s.name d.category s.id, c.2)) := by
  unfold mergeEntries at h
  split at h
  · cases h
  · split at h
    · cases h
    · injection h with h
      subst h
      refine ⟨rfl, ?_⟩
      unfold setCategory
      dsimp only
      congr 1
      split
      · rename_i he
        rw [he]
        clear he
        generalize s.completed = l at hs
        induction l with
        | nil => rfl
        | cons c l ih =>
          rw [List.map_cons, ← ih (fun c hc => hs c (List.mem_cons_of_mem _ hc))]
          congr 1
          rw [← hs c List.mem_cons_self]
      · apply List.map_congr_left
        intro c hc
        rw [if_pos (hs c hc)]

example : ∃ m, mergeEntries (fun name _ _ => "/dst/" ++ name) { Nzb.new 1 with name := "a", dir := "/dst/a", completed := [("/dst/a", 1)] }
      { Nzb.new 2 with name := "b", dir := "/dst/b", completed := [("/dst/b", 2)] } = some m ∧
    m.dir = "/dst/a" ∧ m.completed = [("/dst/a", 1), ("/dst/b", 2)] := ⟨_, rfl, by decide +kernel, by decide +kernel⟩

/-! ### The command -/

/-- The ids of the queue are different, and all entries can be merged. -/
structure Plain (q : List Nzb) : Prop where
  ids : (q.map Nzb.id).Nodup
  nzb : ∀ n ∈ q, n.url = false ∧ n.post = false

theorem entry_some {i : Nat} {q : List Nzb} (h : i ∈ q.map Nzb.id) : ∃ n, entry i q = some n ∧ n ∈ q ∧ n.id = i := by
  obtain ⟨n, hn, hi⟩ := List.mem_map.1 h
  unfold entry
  cases hf : q.find? (fun n => n.id == i) with
  | none =>
    rw [List.find?_eq_none] at hf
    exact absurd (by simpa using hi) (hf n hn)
  | some m =>
    refine ⟨m, rfl, List.mem_of_find?_eq_some hf, ?_⟩
    have := List.find?_some hf
    simpa using this

theorem entry_eq {n : Nzb} {q : List Nzb} (hq : (q.map Nzb.id).Nodup) (h : n ∈ q) : entry n.id q = some n := by
  unfold entry
  induction q with
  | nil => cases h
  | cons x q ih =>
    rw [List.map_cons, List.nodup_cons] at hq
    rcases List.mem_cons.1 h with rfl | h
    · simp
    · rw [List.find?_cons]
      have : (x.id == n.id) = false := by
        simp only [beq_eq_false_iff_ne]
        intro he
        exact hq.1 (he ▸ List.mem_map_of_mem h)
      rw [this]
      exact ih hq.2 h

/-- The files of an entry of the queue, by its id. -/
def filesOf (q : List Nzb) (i : Nat) : List File := match entry i q with | some n => n.files | none => []

/-- What replaces two entries in the queue. -/
def joined (q : List Nzb) (d s : Nat) (m : Nzb) : List Nzb := (q.filter (fun n => n.id != s)).map (fun n => if n.id = d then m else n)

theorem entry_joined_other {q : List Nzb} {d s : Nat} {m : Nzb} (hm : m.id = d) {j : Nat} (hj : j ≠ s) (hjd : j ≠ d) :
    entry j (joined q d s m) = entry j q := by
  unfold joined entry
  induction q with
  | nil => rfl
  | cons x q ih =>
    by_cases hxs : x.id = s
    · rw [List.filter_cons_of_neg (by simp [hxs]), ih, List.find?_cons_of_neg (by simp [hxs, Ne.symm hj])]
    · rw [List.filter_cons_of_pos (by simp [hxs]), List.map_cons]
      by_cases hxd : x.id = d
      · rw [if_pos hxd, List.find?_cons_of_neg (by simp [hm, Ne.symm hjd]), ih,
          List.find?_cons_of_neg (by simp [hxd, Ne.symm hjd])]
      · rw [if_neg hxd]
        by_cases hxj : x.id = j
        · rw [List.find?_cons_of_pos (by simp [hxj]), List.find?_cons_of_pos (by simp [hxj])]
        · rw [List.find?_cons_of_neg (by simp [hxj]), List.find?_cons_of_neg (by simp [hxj]), ih]

theorem entry_joined_dest {q : List Nzb} {d s : Nat} {m : Nzb} (hm : m.id = d) (hne : d ≠ s) (hd : d ∈ q.map Nzb.id) :
    entry d (joined q d s m) = some m := by
  unfold joined entry
  induction q with
  | nil => cases hd
  | cons x q ih =>
    by_cases hxs : x.id = s
    · rw [List.filter_cons_of_neg (by simp [hxs])]
      apply ih
      rw [List.map_cons, List.mem_cons] at hd
      exact hd.resolve_left (fun h => hne (h.trans hxs))
    · rw [List.filter_cons_of_pos (by simp [hxs]), List.map_cons]
      by_cases hxd : x.id = d
      · rw [if_pos hxd, List.find?_cons_of_pos (by simp [hm])]
      · rw [if_neg hxd, List.find?_cons_of_neg (by simp [hxd])]
        apply ih
        rw [List.map_cons, List.mem_cons] at hd
        exact hd.resolve_left (fun h => hxd h.symm)

theorem ids_joined {q : List Nzb} {d s : Nat} {m : Nzb} (hm : m.id = d) :
    (joined q d s m).map Nzb.id = (q.map Nzb.id).filter (fun i => i != s) := by
  unfold joined
  rw [List.map_map, List.filter_map]
  apply List.map_congr_left
  intro n _
  simp only [Function.comp]
  split
  · rename_i h; rw [hm, h]
  · rfl

theorem plain_joined {q : List Nzb} {d s : Nat} {m : Nzb} (hp : Plain q) (hm : m.id = d) (hmu : m.url = false ∧ m.post = false) :
    Plain (joined q d s m) := by
  constructor
  · rw [ids_joined hm]
    exact hp.ids.sublist List.filter_sublist
  · intro n hn
    obtain ⟨x, hx, rfl⟩ := List.mem_map.1 hn
    split
    · exact hmu
    · exact hp.nzb x (List.mem_filter.1 hx).1

theorem mergeLoop_spec {dest : Nat} {items : List Nat} : ∀ {q : List Nzb} {ok : Bool}, Plain q → dest ∈ q.map Nzb.id →
    (∀ i ∈ items, i ∈ q.map Nzb.id) → items.Nodup → dest ∉ items →
    ∃ q' , mergeLoop dirOf dest items q ok = some (q', ok && items.isEmpty) ∧
      q'.map Nzb.id = (q.map Nzb.id).filter (fun i => !items.contains i) ∧
      filesOf q' dest = filesOf q dest ++ items.flatMap (filesOf q) ∧
      ∀ j, j ∉ items → j ≠ dest → entry j q' = entry j q := by
  induction items with
  | nil =>
    intro q ok _ _ _ _ _
    exact ⟨q, by simp [mergeLoop], (List.filter_eq_self.2 (by simp)).symm, by simp, fun _ _ _ => rfl⟩
  | cons i items ih =>
    intro q ok hp hd hi hn hdi
    rw [List.nodup_cons] at hn
    rw [List.mem_cons, not_or] at hdi
    obtain ⟨d, hde, hdm, hdid⟩ := entry_some hd
    obtain ⟨s, hse, hsm, hsid⟩ := entry_some (hi i List.mem_cons_self)
    have hmg : mergeable d s = true := by
      simp [mergeable, hp.nzb d hdm, hp.nzb s hsm]
    cases hm : mergeEntries dirOf d s with
    | none => rw [merge_refused.1 hm] at hmg; cases hmg
    | some m =>
      have hk : m.id = dest ∧ m.files = d.files ++ s.files ∧ m.url = false ∧ m.post = false := by
        unfold mergeEntries at hm
        rw [if_neg (by simp [hp.nzb d hdm, hp.nzb s hsm]), if_neg (by simp [hp.nzb d hdm, hp.nzb s hsm])] at hm
        injection hm with hm
        subst hm
        exact ⟨hdid, rfl, (hp.nzb d hdm).1, (hp.nzb d hdm).2⟩
      have hd' : dest ∈ (joined q dest i m).map Nzb.id := by
        rw [ids_joined hk.1, List.mem_filter]
        exact ⟨hd, by simpa using hdi.1⟩
      obtain ⟨q', r1, r2, r3, r4⟩ := ih (q := joined q dest i m) (ok := false) (plain_joined hp hk.1 hk.2.2) hd' (by
        intro j hj
        rw [ids_joined hk.1, List.mem_filter]
        exact ⟨hi j (List.mem_cons_of_mem _ hj), by
          simp only [bne_iff_ne, ne_eq]; intro hji; exact hn.1 (hji ▸ hj)⟩) hn.2 hdi.2
      refine ⟨q', ?_, ?_, ?_, ?_⟩
      · unfold mergeLoop
        rw [if_neg (Ne.symm hdi.1), hde, hse]
        dsimp only
        rw [hm]
        dsimp only
        exact Eq.trans r1 (by simp)
      · rw [r2, ids_joined hk.1, List.filter_filter]
        apply List.filter_congr
        intro j _
        by_cases h1 : j = i <;> simp [h1]
      · rw [r3]
        have e1 : filesOf (joined q dest i m) dest = filesOf q dest ++ filesOf q i := by
          unfold filesOf
          rw [entry_joined_dest hk.1 hdi.1 hd, hde, hse]
          exact hk.2.1
        rw [e1, List.flatMap_cons, List.append_assoc]
        congr 2
        rw [List.flatMap_def, List.flatMap_def]
        congr 1
        apply List.map_congr_left
        intro j hj
        unfold filesOf
        rw [entry_joined_other hk.1 (show j ≠ i from fun h => hn.1 (h ▸ hj)) (show j ≠ dest from fun h => hdi.2 (h ▸ hj))]
      · intro j hj hjd
        rw [List.mem_cons, not_or] at hj
        rw [r4 j hj.2 hjd, entry_joined_other hk.1 hj.1 hjd]

/-- **C22, the edit command.** Different entries of the queue, none of them in post-processing or an URL, are selected. All are merged into the first
one: it has the files of all of them in the order of the selection, the other selected entries are gone, all others are as before. -/
theorem merge_command {dest : Nat} {rest : List Nat} {q : List Nzb} (hp : Plain q) (hi : ∀ i ∈ dest :: rest, i ∈ q.map Nzb.id)
    (hn : (dest :: rest).Nodup) :
    ∃ q' ok, mergeGroups dirOf (dest :: rest) q = some (q', ok) ∧
      q'.map Nzb.id = (q.map Nzb.id).filter (fun i => !rest.contains i) ∧
      filesOf q' dest = (dest :: rest).flatMap (filesOf q) ∧
      ∀ j, j ∉ dest :: rest → entry j q' = entry j q := by
  rw [List.nodup_cons] at hn
  obtain ⟨q', r1, r2, r3, r4⟩ := mergeLoop_spec (dirOf := dirOf) (ok := true) hp (hi dest List.mem_cons_self)
    (fun i h => hi i (List.mem_cons_of_mem _ h)) hn.2 hn.1
  refine ⟨q', true && rest.isEmpty, ?_, r2, by rw [r3, List.flatMap_cons], ?_⟩
  · unfold mergeGroups
    dsimp only
    unfold mergeLoop
    rw [if_pos rfl, r1]
  · intro j hj
    rw [List.mem_cons, not_or] at hj
    exact r4 j hj.2 hj.1

/-- **C22, violation.** What the command reports is the contrary: if two or more entries are merged it reports failure; it reports success
if nothing was merged. -/
theorem merge_reports_contrary {dest : Nat} {rest : List Nat} {q : List Nzb} (hp : Plain q) (hi : ∀ i ∈ dest :: rest, i ∈ q.map Nzb.id)
    (hn : (dest :: rest).Nodup) :
    ∃ q' ok, mergeGroups dirOf (dest :: rest) q = some (q', ok) ∧ (ok = false ↔ q'.length < q.length) := by
  have hn' := hn
  rw [List.nodup_cons] at hn
  obtain ⟨q', r1, r2, r3, r4⟩ := mergeLoop_spec (dirOf := dirOf) (ok := true) hp (hi dest List.mem_cons_self)
    (fun i h => hi i (List.mem_cons_of_mem _ h)) hn.2 hn.1
  refine ⟨q', true && rest.isEmpty, ?_, ?_⟩
  · unfold mergeGroups
    dsimp only
    unfold mergeLoop
    rw [if_pos rfl, r1]
  · have hl : q'.length = ((q.map Nzb.id).filter (fun i => !rest.contains i)).length := by rw [← r2, List.length_map]
    cases rest with
    | nil =>
      rw [List.filter_eq_self.2 (by simp), List.length_map] at hl
      simp [hl]
    | cons i rest =>
      have : ((q.map Nzb.id).filter (fun j => !(i :: rest).contains j)).length < (q.map Nzb.id).length :=
        List.length_filter_lt_length_iff_exists.2 ⟨i, hi i (by simp), by simp⟩
      rw [List.length_map] at this
      simp
      omega

/-- If none of the entries can be merged, the command reports success. -/
theorem merge_refused_reports_success {dest : Nat} {rest : List Nat} {q : List Nzb}
    (hi : ∀ i ∈ dest :: rest, i ∈ q.map Nzb.id) (hr : ∀ n ∈ q, n.id = dest → n.url = true ∨ n.post = true) :
    mergeGroups dirOf (dest :: rest) q = some (q, true) := by
  unfold mergeGroups
  dsimp only
  have key : ∀ items : List Nat, (∀ i ∈ items, i ∈ q.map Nzb.id) → mergeLoop dirOf dest items q true = some (q, true) := by
    intro items
    induction items with
    | nil => intro _; rfl
    | cons i items ih =>
      intro h
      have ih := ih (fun j hj => h j (List.mem_cons_of_mem _ hj))
      unfold mergeLoop
      by_cases hid : i = dest
      · rw [if_pos hid, ih]
      · rw [if_neg hid]
        obtain ⟨d, hde, hdm, hdid⟩ := entry_some (hi dest List.mem_cons_self)
        obtain ⟨s, hse, hsm, hsid⟩ := entry_some (h i List.mem_cons_self)
        rw [hde, hse]
        dsimp only
        have : mergeEntries dirOf d s = none := merge_refused.2 (by
          unfold mergeable
          rcases hr d hdm hdid with h | h <;> simp [h])
        rw [this]
        exact ih
  exact key _ hi

/-- An entry which is selected twice is used after it was freed. -/
theorem merge_twice_undefined {dest i : Nat} {q : List Nzb} (hp : Plain q) (hd : dest ∈ q.map Nzb.id) (hi : i ∈ q.map Nzb.id)
    (hne : dest ≠ i) : mergeGroups dirOf [dest, i, i] q = none := by
  unfold mergeGroups
  dsimp only
  unfold mergeLoop
  rw [if_pos rfl]
  unfold mergeLoop
  rw [if_neg (Ne.symm hne)]
  obtain ⟨d, hde, hdm, hdid⟩ := entry_some hd
  obtain ⟨s, hse, hsm, hsid⟩ := entry_some hi
  rw [hde, hse]
  dsimp only
  cases hm : mergeEntries dirOf d s with
  | none =>
    have := merge_refused.1 hm
    simp [mergeable, hp.nzb d hdm, hp.nzb s hsm] at this
  | some m =>
    dsimp only
    unfold mergeLoop
    rw [if_neg (Ne.symm hne)]
    have : entry i ((q.filter (fun n => n.id != i)).map (fun n => if n.id = dest then m else n)) = none := by
      have hmid : m.id = dest := by
        unfold mergeEntries at hm
        rw [if_neg (by simp [hp.nzb d hdm, hp.nzb s hsm]), if_neg (by simp [hp.nzb d hdm, hp.nzb s hsm])] at hm
        injection hm with hm
        subst hm
        exact hdid
      unfold entry
      rw [List.find?_eq_none]
      intro x hx
      obtain ⟨y, hy, rfl⟩ := List.mem_map.1 hx
      have := (List.mem_filter.1 hy).2
      split
      · simp [hmid, hne]
      · simpa using this
    rw [this]
    split <;> simp_all

def mergeQueue : List Nzb := [mergeExample 1 10 false, mergeExample 2 20 true, mergeExample 3 30 false]

example : Plain mergeQueue ∧ (∀ i ∈ [3, 1], i ∈ mergeQueue.map Nzb.id) ∧ [3, 1].Nodup := by
  refine ⟨⟨by decide +kernel, by decide +kernel⟩, by decide +kernel, by decide⟩

end Verif.Counters
