/-
C21: splitting files out of a queue entry.
-/
import Verif.CountersProps

namespace Verif.Counters

/-! ### Specification -/

/-- The entry `n` with four members put right: the number of paused files, the failed sizes (of all and of par2-files) which come from
articles missing in the nzb-file, and the number of files with extra priority. -/
def corrected (n : Nzb) (pausedCount failed parFailed extra : Int) : Nzb :=
  { n with pausedCount := pausedCount, failed := failed, parFailed := parFailed, extra := extra }

/-- Some of the files are paused. -/
def somePaused (l : List File) : Bool := l.any (·.paused)

/-! ### The loop -/

/-- What holds in the loop: `src`, `new` are good, except for these members. -/
structure Splitting (orig src new : Nzb) (done : List File) : Prop where
  goodSrc : Good (corrected src src.pausedCount (src.failed - tally (·.missed) new.files)
    (src.parFailed - tally (fun f => only f.par f.missed) new.files) (src.extra - tally (fun f => only f.extra 1) new.files)) done
  goodNew : Good (corrected new (tally (fun f => only f.paused 1) new.files) (tally (·.missed) new.files)
    (tally (fun f => only f.par f.missed) new.files) (tally (fun f => only f.extra 1) new.files)) []
  newFailed : new.failed = 0 ∧ new.parFailed = 0 ∧ new.extra = 0
  newPaused : new.pausedCount = if somePaused new.files then src.pausedCount + 1 else 0
  kept : src.failed = orig.failed ∧ src.parFailed = orig.parFailed ∧ src.extra = orig.extra ∧ src.completed = orig.completed ∧ src.id = orig.id
  files : orig.files.Perm (src.files ++ new.files)

theorem remove_perm {i : Nat} {f : File} {l : List File} (h : find i l = some f) : l.Perm (f :: remove i l) := by
  induction l with
  | nil => simp [find] at h
  | cons x l ih =>
    unfold find at h
    unfold remove
    by_cases hx : x.id = i
    · rw [if_pos hx] at h ⊢
      injection h with h
      subst h
      exact List.Perm.refl _
    · rw [if_neg hx] at h ⊢
      exact ((ih h).cons x).trans (List.Perm.swap f x _)

theorem splitFile_files (src new : Nzb) (f : File) :
    (splitFile src new f).1.files = remove f.id src.files ∧ (splitFile src new f).2.files = new.files ++ [f] := by
  unfold splitFile
  dsimp only
  cases f.par <;> cases f.paused <;> exact ⟨rfl, rfl⟩

theorem splitting_step {orig src new : Nzb} {done : List File} {f : File} {i : Nat} (hf : find i src.files = some f)
    (h : Splitting orig src new done) : Splitting orig (splitFile src new f).1 (splitFile src new f).2 done := by
  have hid := find_id hf
  have hfiles := splitFile_files src new f
  subst hid
  obtain ⟨⟨⟨e1, e2, e3, e4, e5, e6, e7, e8, e9, e10, e11, e12, e13⟩, ⟨w1, w2, w3, w4, w5, w6, w7, w8, w9, w10⟩, hs, hd, hu⟩,
    ⟨⟨E1, E2, E3, E4, E5, E6, E7, E8, E9, E10, E11, E12, E13⟩, ⟨W1, W2, W3, W4, W5, W6, W7, W8, W9, W10⟩, hS, hD, hU⟩,
    ⟨n1, n2, n3⟩, hp, hk, hperm⟩ := h
  have hlen := length_remove hf
  have hsz := hs f (by unfold corrected; exact find_mem hf)
  refine ⟨⟨?_, ?_, ?sz, hd, ?_⟩, ⟨?_, ?_, ?szNew, fun g hg => absurd hg (by simp), ?_⟩, ?_, ?pau, ?_, ?perm⟩
  case perm =>
    rw [hfiles.1, hfiles.2, ← List.append_assoc]
    refine hperm.trans ?_
    refine ((remove_perm hf).append_right _).trans ?_
    refine List.Perm.trans ?_ List.perm_append_comm
    exact List.Perm.refl _
  case sz =>
    intro g hg
    unfold corrected at hg hs
    rw [show _ = remove f.id src.files from hfiles.1] at hg
    exact hs g (mem_remove hg)
  case szNew =>
    intro g hg
    unfold corrected at hg hS
    rw [show _ = new.files ++ [f] from hfiles.2] at hg
    rcases List.mem_append.1 hg with hg | hg
    · exact hS g hg
    · simp only [List.mem_singleton] at hg
      subst hg
      exact hsz
  case pau =>
    rw [hfiles.2, show somePaused (new.files ++ [f]) = (somePaused new.files || f.paused) from by simp [somePaused]]
    unfold splitFile
    dsimp only
    cases hpar : f.par <;> cases hpau : f.paused <;>
      simp only [Bool.false_eq_true, reduceIte, if_true, if_false, Bool.or_false, Bool.or_true] <;> exact hp
  all_goals
    unfold corrected at *
    unfold splitFile
    unfold splitFile at hfiles
    dsimp only at *
    cases hpar : f.par <;> cases hpau : f.paused <;>
      simp only [hpar, hpau, Bool.false_eq_true, reduceIte, if_true, if_false] at hfiles ⊢ <;>
      first
      | assumption
      | exact ⟨n1, n2, n3⟩
      | (constructor <;> (try intro s; have e12 := e12 s; have e13 := e13 s; have E12 := E12 s; have E13 := E13 s) <;>
          dsimp only <;> (try simp only [tally_remove hf, tally_append, tally_cons, tally_nil, hpar, hpau, only_true, only_false,
            fromServer_add, failedOn_add, fromServer_sub, failedOn_sub, List.length_append, List.length_cons, List.length_nil]) <;>
          (try simp only [tally_nil, List.length_nil] at W1 W2 W3 W4 W5 W6 W7 W8 W9 W10) <;> omega)

theorem splitLoop_spec {sel : List Nat} {orig done src new src' new'} (h : Splitting orig src new done)
    (hr : splitLoop sel src new = some (src', new')) :
    Splitting orig src' new' done ∧ ∃ chosen, new'.files = new.files ++ chosen ∧ chosen.map File.id = sel := by
  induction sel generalizing src new with
  | nil =>
    simp only [splitLoop, Option.some.injEq, Prod.mk.injEq] at hr
    obtain ⟨rfl, rfl⟩ := hr
    exact ⟨h, [], by simp, rfl⟩
  | cons i sel ih =>
    unfold splitLoop at hr
    cases hf : find i src.files with
    | none => rw [hf] at hr; cases hr
    | some f =>
      rw [hf] at hr
      dsimp only at hr
      obtain ⟨h1, c, hc, hm⟩ := ih (splitting_step hf h) hr
      refine ⟨h1, f :: c, ?_, ?_⟩
      · rw [hc, (splitFile_files src new f).2]
        simp
      · simp [hm, find_id hf]

theorem find_remove {i j : Nat} {l : List File} (h : i ≠ j) : find i (remove j l) = find i l := by
  induction l with
  | nil => rfl
  | cons x l ih =>
    unfold remove
    by_cases hx : x.id = j
    · rw [if_pos hx]
      rw [find, if_neg (fun hi => h (hi.symm.trans hx))]
    · rw [if_neg hx, find, find, ih]

/-- The loop goes through if the files are different ones of the entry. -/
theorem splitLoop_defined {sel : List Nat} {src new : Nzb} (hn : sel.Nodup) (h : ∀ i ∈ sel, (find i src.files).isSome) :
    ∃ r, splitLoop sel src new = some r := by
  induction sel generalizing src new with
  | nil => exact ⟨_, rfl⟩
  | cons i sel ih =>
    unfold splitLoop
    have hi := h i List.mem_cons_self
    cases hf : find i src.files with
    | none => rw [hf] at hi; cases hi
    | some f =>
      dsimp only
      rw [List.nodup_cons] at hn
      apply ih hn.2
      intro j hj
      rw [(splitFile_files src new f).1, find_id hf, find_remove (show j ≠ i from fun hji => hn.1 (hji ▸ hj))]
      exact h j (List.mem_cons_of_mem _ hj)

/-- The loop has no defined result if one of the files is not in the entry. -/
theorem splitLoop_foreign {sel : List Nat} {src new : Nzb} (h : ∃ i ∈ sel, find i src.files = none) :
    splitLoop sel src new = none := by
  induction sel generalizing src new with
  | nil => obtain ⟨i, hi, _⟩ := h; cases hi
  | cons j sel ih =>
    unfold splitLoop
    cases hf : find j src.files with
    | none => rfl
    | some f =>
      dsimp only
      obtain ⟨i, hi, hn⟩ := h
      rcases List.mem_cons.1 hi with rfl | hi
      · rw [hf] at hn; cases hn
      · apply ih
        refine ⟨i, hi, ?_⟩
        rw [(splitFile_files src new f).1, find_id hf]
        by_cases hij : i = j
        · subst hij; rw [hf] at hn; cases hn
        · rw [find_remove hij]; exact hn

/-! ### The command -/

theorem good_start {src : Nzb} {done : List File} {name category dir queued : String} {id : Nat} (h : Good src done) :
    Splitting src src { Nzb.new id with name := name, category := category, dir := dir, queued := queued } done := by
  refine ⟨?_, ?_, ⟨rfl, rfl, rfl⟩, by rfl, ⟨rfl, rfl, rfl, rfl, rfl⟩, by simp [Nzb.new]⟩
  · unfold corrected Nzb.new
    simp only [tally_nil, Int.sub_zero]
    exact h
  · unfold corrected Nzb.new
    simp only [tally_nil]
    refine ⟨?_, ?_, (fun f hf => absurd hf (by simp)), (fun f hf => absurd hf (by simp)), by simp⟩
    · constructor <;> intros <;> rfl
    · constructor <;> rfl

theorem minMax_keeps (n : Nzb) : ∃ a b, updateMinMaxTime n = { n with minTime := a, maxTime := b } := by
  unfold updateMinMaxTime
  split
  · exact ⟨0, 0, rfl⟩
  · exact ⟨_, _, rfl⟩

theorem good_times {n : Nzb} {done : List File} {a b : Int} (h : Good n done) : Good { n with minTime := a, maxTime := b } done := by
  obtain ⟨⟨e1, e2, e3, e4, e5, e6, e7, e8, e9, e10, e11, e12, e13⟩, ⟨w1, w2, w3, w4, w5, w6, w7, w8, w9, w10⟩, hs, hd, hu⟩ := h
  exact ⟨⟨e1, e2, e3, e4, e5, e6, e7, e8, e9, e10, e11, e12, e13⟩, ⟨w1, w2, w3, w4, w5, w6, w7, w8, w9, w10⟩, hs, hd, hu⟩

/-- The selected files are different files of the entry `src`, and none of them has begun to download. -/
structure Selected (q : List Nzb) (src : Nzb) (sel : List Nat) : Prop where
  some : sel ≠ []
  nodup : sel.Nodup
  owner : ∀ i ∈ sel, owner i q = Option.some src
  idle : ∀ i ∈ sel, ∀ f ∈ src.files, f.id = i → f.active = 0 ∧ f.completedArticles = 0
  noPost : src.post = false

theorem owner_find {i : Nat} {q : List Nzb} {n : Nzb} (h : owner i q = some n) : (find i n.files).isSome := by
  unfold owner at h
  have := List.find?_some h
  simpa using this

theorem selected_splittable {q : List Nzb} {src : Nzb} {sel : List Nat} (h : Selected q src sel) : sel.all (splittable q) = true := by
  rw [List.all_eq_true]
  intro i hi
  unfold splittable
  rw [h.owner i hi]
  have ho := owner_find (h.owner i hi)
  cases hf : find i src.files with
  | none => rw [hf] at ho; cases ho
  | some f =>
    obtain ⟨h1, h2⟩ := h.idle i hi f (find_mem hf) (find_id hf)
    simp [hf, h1, h2, h.noPost]

/-- **C21, partial.** When files of an entry with right counters are split out of it, the new entry (the last of the queue) has exactly the
selected files, in the order of the selection, and the old entry has the others; all counters of the old and of the new entry describe
their lists of files, except these: the new entry's number of paused files, both entries' failed sizes of completed files, and both entries'
numbers of files with extra priority. The old entry keeps its failed sizes and its number of extra priority files, those of the new one are 0.
If no file is left, the old entry is removed. -/
theorem split_partial (dirOf : String → String → Nat → String) {q : List Nzb} {src : Nzb} {sel : List Nat} {done : List File}
    (name : String) (newId : Nat) (hs : Selected q src sel) (hg : Good src done) :
    ∃ src' new, splitEntries dirOf q sel name newId = some (some
        ((if src'.files = [] then q.filter (fun n => n.id != src.id) else q.map (fun n => if n.id = src.id then src' else n)) ++ [new])) ∧
      new.files.map File.id = sel ∧ src.files.Perm (src'.files ++ new.files) ∧
      Good (corrected src' src'.pausedCount (src.failed - tally (·.missed) new.files)
        (src.parFailed - tally (fun f => only f.par f.missed) new.files) (src.extra - tally (fun f => only f.extra 1) new.files)) done ∧
      Good (corrected new (tally (fun f => only f.paused 1) new.files) (tally (·.missed) new.files)
        (tally (fun f => only f.par f.missed) new.files) (tally (fun f => only f.extra 1) new.files)) [] ∧
      src'.failed = src.failed ∧ src'.parFailed = src.parFailed ∧ src'.extra = src.extra ∧
      new.failed = 0 ∧ new.parFailed = 0 ∧ new.extra = 0 ∧
      new.pausedCount = (if somePaused new.files then tally (fun f => only f.paused 1) src'.files + 1 else 0) := by
  obtain ⟨i, rest, hsel⟩ := List.exists_cons_of_ne_nil hs.some
  subst hsel
  have hall := selected_splittable hs
  have ho := hs.owner i List.mem_cons_self
  unfold splitEntries
  dsimp only
  rw [hall, ho]
  dsimp only [Bool.not_true]
  rw [if_neg (by simp)]
  obtain ⟨⟨s1, n1⟩, hr⟩ := splitLoop_defined (src := src)
    (new := { Nzb.new newId with name := name, category := src.category, dir := dirOf name src.category newId, queued := src.queued })
    hs.nodup (fun j hj => owner_find (hs.owner j hj))
  rw [hr]
  obtain ⟨h, c, hc, hm⟩ := splitLoop_spec (good_start hg) hr
  simp only [Nzb.new, List.nil_append] at hc
  subst hc
  obtain ⟨a, b, hab⟩ := minMax_keeps n1
  obtain ⟨a', b', hab'⟩ := minMax_keeps s1
  obtain ⟨⟨k1, k2, k3, k4, k5⟩, hnf⟩ := And.intro h.kept h.newFailed
  have hsrc := h.goodSrc
  have hnew := h.goodNew
  have hpc := h.goodSrc.exact.pausedCount
  unfold corrected at hpc
  dsimp only at hpc
  rw [k1, k2, k3] at hsrc
  have hnp := h.newPaused
  rw [hpc] at hnp
  have fin : ∀ s2, (s2 = s1 ∨ ∃ x y, s2 = { s1 with minTime := x, maxTime := y }) →
      s2.files = s1.files ∧ s2.failed = s1.failed ∧ s2.parFailed = s1.parFailed ∧ s2.extra = s1.extra ∧
      Good (corrected s2 s2.pausedCount (src.failed - tally (·.missed) n1.files)
        (src.parFailed - tally (fun f => only f.par f.missed) n1.files) (src.extra - tally (fun f => only f.extra 1) n1.files)) done := by
    rintro s2 (rfl | ⟨x, y, rfl⟩)
    · exact ⟨rfl, rfl, rfl, rfl, hsrc⟩
    · exact ⟨rfl, rfl, rfl, rfl, good_times hsrc⟩
  have fin := fin (if s1.completed.isEmpty then updateMinMaxTime s1 else s1) (by
    split
    · exact Or.inr ⟨a', b', hab'⟩
    · exact Or.inl rfl)
  refine ⟨if s1.completed.isEmpty then updateMinMaxTime s1 else s1, updateMinMaxTime n1, ?_, ?_, ?_, ?_, ?_, ?_, ?_, ?_, ?_, ?_, ?_, ?_⟩
  · simp only [Option.map_some, List.isEmpty_iff]
  · rw [hab]; exact hm
  · rw [hab, fin.1]; exact h.files
  · rw [hab]; exact fin.2.2.2.2
  · rw [hab]; exact good_times hnew
  · rw [fin.2.1, k1]
  · rw [fin.2.2.1, k2]
  · rw [fin.2.2.2.1, k3]
  · rw [hab]; exact hnf.1
  · rw [hab]; exact hnf.2.1
  · rw [hab]; exact hnf.2.2
  · rw [hab, fin.1]; exact hnp

theorem reload_failed {n : Nzb} (hu : (n.stats.map Stat.server).Nodup) : (reload n).curFailed = n.failed + tally (·.failed) n.files ∧
    (reload n).extra = tally (fun f => only f.extra 1) n.files ∧ (reload n).pausedCount = tally (fun f => only f.paused 1) n.files := by
  unfold reload updateCurrentStats
  obtain ⟨a1, a2, a3, a4, a5, a6, a7, a8, a9, a10, a11, a12, a13, a14, a15, _⟩ := addFileStats_fold n.files { n with
      pausedCount := 0, parCount := 0, remaining := 0, pausedSize := 0,
      curSuccessArticles := n.successArticles, curFailedArticles := n.failedArticles,
      curSuccess := n.success, curFailed := n.failed,
      parCurSuccess := n.parSuccess, parCurFailed := n.parFailed,
      extra := 0, curStats := listOp .set (listOp .set [] n.stats) n.stats }
  refine ⟨a15, ?_, ?_⟩
  · rw [a12]; exact Int.zero_add _
  · rw [a10]; exact Int.zero_add _

/-- If no article of the selected files is missing in the nzb-file, none of them has extra priority and none is paused, all
counters of both entries are right. -/
theorem split_exact (dirOf : String → String → Nat → String) {q : List Nzb} {src : Nzb} {sel : List Nat} {done : List File}
    (name : String) (newId : Nat) (hs : Selected q src sel) (hg : Good src done)
    (hsel : ∀ f ∈ src.files, f.id ∈ sel → f.missed = 0 ∧ f.extra = false ∧ f.paused = false) :
    ∃ src' new, splitEntries dirOf q sel name newId = some (some
        ((if src'.files = [] then q.filter (fun n => n.id != src.id) else q.map (fun n => if n.id = src.id then src' else n)) ++ [new])) ∧
      new.files.map File.id = sel ∧ src.files.Perm (src'.files ++ new.files) ∧ Good src' done ∧ Good new [] := by
  obtain ⟨src', new, h1, h2, h3, h4, h5, k1, k2, k3, k4, k5, k6, k7⟩ := split_partial dirOf name newId hs hg
  refine ⟨src', new, h1, h2, h3, ?_⟩
  have hf : ∀ f ∈ new.files, f.missed = 0 ∧ f.extra = false ∧ f.paused = false := by
    intro f hf
    refine hsel f (h3.mem_iff.2 (List.mem_append_right _ hf)) ?_
    rw [← h2]
    exact List.mem_map_of_mem hf
  have zero : ∀ g : File → Int, (∀ f ∈ new.files, g f = 0) → tally g new.files = 0 := by
    intro g
    generalize new.files = l
    intro hg
    induction l with
    | nil => rfl
    | cons f l ih => rw [tally_cons, hg f List.mem_cons_self, ih (fun x hx => hg x (List.mem_cons_of_mem _ hx))]; rfl
  have z1 := zero (·.missed) (fun f h => (hf f h).1)
  have z2 := zero (fun f => only f.par f.missed) (fun f h => by
    cases hp : f.par
    · rfl
    · exact (hf f h).1)
  have z3 := zero (fun f => only f.extra 1) (fun f h => by rw [(hf f h).2.1]; rfl)
  have z4 := zero (fun f => only f.paused 1) (fun f h => by rw [(hf f h).2.2]; rfl)
  have z5 : somePaused new.files = false := by
    unfold somePaused
    rw [List.any_eq_false]
    intro f h
    rw [(hf f h).2.2]
    simp
  rw [z5] at k7
  rw [z1, z2, z3, Int.sub_zero, Int.sub_zero, Int.sub_zero, ← k1, ← k2, ← k3] at h4
  simp only [Bool.false_eq_true, if_false] at k7
  rw [z1, z2, z3, z4] at h5
  constructor
  · unfold corrected at h4
    exact h4
  · have hnew : corrected new 0 0 0 0 = corrected new new.pausedCount new.failed new.parFailed new.extra := by rw [k4, k5, k6, k7]
    rw [hnew] at h5
    exact h5

/-! ### Where it goes wrong -/

def pausedFile (i : Nat) (b : Bool) : File := { exampleFile i 100 0 false with paused := b }

def splitExample : Nzb :=
  { newEntry 1 [pausedFile 1 true, pausedFile 2 false, pausedFile 3 true] with pausedCount := 2, pausedSize := 200 }

example : Good splitExample [] ∧ Selected [splitExample] splitExample [1, 2] := by
  have h0 : Good (newEntry 1 [exampleFile 1 100 0 false, exampleFile 2 100 0 false, exampleFile 3 100 0 false]) [] :=
    good_newEntry (by simp [Fresh, exampleFile])
  have h := good_pause 3 true (good_pause 1 true h0)
  have e : setPaused (setPaused (newEntry 1 [exampleFile 1 100 0 false, exampleFile 2 100 0 false, exampleFile 3 100 0 false]) 1 true) 3 true =
      splitExample := by decide +kernel
  rw [e] at h
  refine ⟨h, by simp, by decide, ?_, ?_, rfl⟩
  · intro i hi
    simp only [List.mem_cons, List.not_mem_nil, or_false] at hi
    rcases hi with rfl | rfl <;> decide +kernel
  · intro i hi f hf _
    have : ∀ f ∈ splitExample.files, f.active = 0 ∧ f.completedArticles = 0 := by decide +kernel
    exact this f hf

/-- The second file alone meets the conditions of `split_exact`. -/
example : Selected [splitExample] splitExample [2] ∧
    ∀ f ∈ splitExample.files, f.id ∈ [2] → f.missed = 0 ∧ f.extra = false ∧ f.paused = false := by
  refine ⟨⟨by simp, by decide, ?_, ?_, rfl⟩, by decide +kernel⟩
  · intro i hi
    simp only [List.mem_cons, List.not_mem_nil, or_false] at hi
    subst hi
    decide +kernel
  · intro i hi f hf _
    have : ∀ f ∈ splitExample.files, f.active = 0 ∧ f.completedArticles = 0 := by decide +kernel
    exact this f hf

/-- **C21, violation.** The number of paused files of the new entry is computed from that of the old one (QueueCoordinator.cpp:1326). Whenever
a selected file is paused, it is wrong unless there is one more paused file among the selected ones than among those which are left. -/
theorem split_paused_count_wrong (dirOf : String → String → Nat → String) {q : List Nzb} {src : Nzb} {sel : List Nat} {done : List File}
    (name : String) (newId : Nat) (hs : Selected q src sel) (hg : Good src done) :
    ∃ src' new, splitEntries dirOf q sel name newId = some (some
        ((if src'.files = [] then q.filter (fun n => n.id != src.id) else q.map (fun n => if n.id = src.id then src' else n)) ++ [new])) ∧
      new.files.map File.id = sel ∧ src.files.Perm (src'.files ++ new.files) ∧
      (somePaused new.files = true →
        (new.pausedCount = tally (fun f => only f.paused 1) new.files ↔
          tally (fun f => only f.paused 1) new.files = tally (fun f => only f.paused 1) src'.files + 1)) := by
  obtain ⟨src', new, h1, h2, h3, h4, h5, k1, k2, k3, k4, k5, k6, k7⟩ := split_partial dirOf name newId hs hg
  refine ⟨src', new, h1, h2, h3, ?_⟩
  intro hp
  rw [hp] at k7
  simp only [if_true] at k7
  omega

/-- In an entry of three files, the first and the last paused, the first two are split out. The number of paused files of the new entry is
that of all its files, so the program takes the entry for paused (QueueCoordinator.cpp:531) although the second file is not. -/
theorem split_stops_download (dirOf : String → String → Nat → String) :
    ∃ src' new, splitEntries dirOf [splitExample] [1, 2] "b" 2 = some (some [src', new]) ∧ (∃ f ∈ new.files, f.paused = false) ∧
      new.pausedCount = new.files.length := by
  refine ⟨_, _, rfl, ?_, ?_⟩
  · exact ⟨pausedFile 2 false, by show pausedFile 2 false ∈ [pausedFile 1 true, pausedFile 2 false]; simp, rfl⟩
  · rfl

/-- **C21, violation.** The failed size of the new entry does not contain the articles missing in the nzb-file: after a restart of the program the
new entry's failed size is less by them and the old one's is more by them than before. The same files are shown with another health. -/
theorem split_restart_changes_failed (dirOf : String → String → Nat → String) {q : List Nzb} {src : Nzb} {sel : List Nat} {done : List File}
    (name : String) (newId : Nat) (hs : Selected q src sel) (hg : Good src done) :
    ∃ src' new, splitEntries dirOf q sel name newId = some (some
        ((if src'.files = [] then q.filter (fun n => n.id != src.id) else q.map (fun n => if n.id = src.id then src' else n)) ++ [new])) ∧
      new.files.map File.id = sel ∧
      (reload new).curFailed = new.curFailed - tally (·.missed) new.files ∧
      (reload src').curFailed = src'.curFailed + tally (·.missed) new.files := by
  obtain ⟨src', new, h1, h2, h3, h4, h5, k1, k2, k3, k4, k5, k6, k7⟩ := split_partial dirOf name newId hs hg
  refine ⟨src', new, h1, h2, ?_, ?_⟩
  · have := (reload_failed (n := new) (by have := h5.servers; unfold corrected at this; exact this)).1
    have h := h5.exact.curFailed
    unfold corrected at h
    dsimp only at h
    rw [this, h]
    omega
  · have := (reload_failed (n := src') (by have := h4.servers; unfold corrected at this; exact this)).1
    have h := h4.exact.curFailed
    unfold corrected at h
    dsimp only at h
    rw [this, h]
    omega

/-- **C21, violation.** Files with extra priority are not counted in the new entry, and still in the old one. -/
theorem split_extra_priority_wrong (dirOf : String → String → Nat → String) {q : List Nzb} {src : Nzb} {sel : List Nat} {done : List File}
    (name : String) (newId : Nat) (hs : Selected q src sel) (hg : Good src done) :
    ∃ src' new, splitEntries dirOf q sel name newId = some (some
        ((if src'.files = [] then q.filter (fun n => n.id != src.id) else q.map (fun n => if n.id = src.id then src' else n)) ++ [new])) ∧
      new.files.map File.id = sel ∧ new.extra = 0 ∧
      src'.extra = tally (fun f => only f.extra 1) src'.files + tally (fun f => only f.extra 1) new.files := by
  obtain ⟨src', new, h1, h2, h3, h4, h5, k1, k2, k3, k4, k5, k6, k7⟩ := split_partial dirOf name newId hs hg
  refine ⟨src', new, h1, h2, k6, ?_⟩
  have h := h4.exact.extra
  unfold corrected at h
  dsimp only at h
  omega

/-- **C21, violation.** Files of two entries are selected, all can be split: a null pointer is read. -/
theorem split_two_entries_undefined (dirOf : String → String → Nat → String) {q : List Nzb} {src : Nzb} {i j : Nat} {sel : List Nat}
    (name : String) (newId : Nat) (hall : ∀ k ∈ i :: sel, splittable q k = true) (ho : owner i q = some src) (hj : j ∈ i :: sel)
    (hn : find j src.files = none) : splitEntries dirOf q (i :: sel) name newId = none := by
  unfold splitEntries
  dsimp only
  rw [List.all_eq_true.2 hall, ho]
  dsimp only [Bool.not_true]
  rw [if_neg (by simp), splitLoop_foreign ⟨j, hj, hn⟩]
  rfl

example : (∀ k ∈ [1, 7], splittable [splitExample, newEntry 2 [exampleFile 7 50 0 false]] k = true) ∧
    owner 1 [splitExample, newEntry 2 [exampleFile 7 50 0 false]] = some splitExample ∧ find 7 splitExample.files = none := by
  refine ⟨?_, ?_, ?_⟩ <;> decide +kernel

/-- A file which is being downloaded or is partly downloaded, or whose entry is in post-processing, is never split out of its entry: the
command is refused and nothing changes. -/
theorem split_refused (dirOf : String → String → Nat → String) (q : List Nzb) (sel : List Nat) (name : String) (newId : Nat)
    {i : Nat} {n : Nzb} {f : File} (hi : i ∈ sel) (ho : owner i q = some n) (hf : find i n.files = some f)
    (hbusy : f.active > 0 ∨ f.completedArticles > 0 ∨ n.post = true) : splitEntries dirOf q sel name newId = some none := by
  have hno : splittable q i = false := by
    unfold splittable
    rw [ho]
    dsimp only
    rw [hf]
    dsimp only
    rcases hbusy with h | h | h
    · simp [h]
    · simp [h]
    · simp [h]
  have hall : sel.all (splittable q) = false := by
    rw [List.all_eq_false]
    exact ⟨i, hi, by simp [hno]⟩
  unfold splitEntries
  cases sel with
  | nil => rfl
  | cons j l =>
    dsimp only
    rw [hall]
    rfl

example : splitEntries (fun _ _ _ => "") [newEntry 2 [{ exampleFile 7 50 0 false with completedArticles := 1 }]] [7] "x" 9 = some none := by
  decide +kernel

/-- When all files which are left are split out of an entry, the entry disappears with what it has completed: the files completed before
belong to no entry of the queue any more. -/
theorem split_drops_completed (dirOf : String → String → Nat → String) {q : List Nzb} {src : Nzb} {sel : List Nat} {done : List File}
    (name : String) (newId : Nat) (hs : Selected q src sel) (hg : Good src done) (hlen : src.files.length = sel.length) :
    ∃ new, splitEntries dirOf q sel name newId = some (some (q.filter (fun n => n.id != src.id) ++ [new])) ∧
      new.success = 0 ∧ Whole (corrected new (tally (fun f => only f.paused 1) new.files) (tally (·.missed) new.files)
        (tally (fun f => only f.par f.missed) new.files) (tally (fun f => only f.extra 1) new.files)) [] := by
  obtain ⟨src', new, h1, h2, h3, h4, h5, k1, k2, k3, k4, k5, k6, k7⟩ := split_partial dirOf name newId hs hg
  have hl := h3.length_eq
  have hl2 : new.files.length = sel.length := by rw [← h2]; simp
  rw [List.length_append] at hl
  have : src'.files = [] := List.eq_nil_of_length_eq_zero (by omega)
  rw [if_pos this] at h1
  refine ⟨new, h1, ?_, h5.whole⟩
  have := h5.whole.success
  unfold corrected at this
  exact this

end Verif.Counters
