import Verif.ParWait
import Verif.RepairProps
/-
Properties of the waiting for more par2-files (C136): no file which was downloaded is lost; it gives up only if everything downloaded was tried and
the queue has nothing more to give; it waits only while something can come, unless a file is deleted or paused at the wrong moment; it always ends.
-/
namespace Verif.ParWait
open Verif.CStr Verif.Repair

/-- What the options must be: the name of the par2-file is one, the sort is a sort. -/
structure Ok (p : Par) : Prop where
  isPar : ParName.IsPar true (FileName.baseName p.parName)
  sorts : Sorts p.sort

/-- Files have different ids. -/
def Distinct (files : List PFile) : Prop := (files.map PFile.id).Nodup

/-- The files which were taken and not yet given to libpar2. -/
def hand : Pc → List PFile
  | .read l => l
  | _ => []

/-! ### Lemmas -/

theorem request_ids (sort : List Block → List Block) (files : List PFile) (n : Bytes) (k : Int) :
    (requestMore sort files n k).files.map PFile.id = files.map PFile.id := by
  have hu : ∀ sel (f : PFile), (unpause sel f).id = f.id := by
    intro sel f; unfold unpause; split <;> rfl
  unfold requestMore
  dsimp only
  split
  · dsimp only
    rw [List.map_map]
    exact List.map_congr_left (fun f _ => hu _ f)
  · rfl

theorem request_open {p : Par} (h : Ok p) {files : List PFile} (hd : Distinct files) {k : Int} (hk : 0 < k)
    (ho : (requestMore p.sort files p.parName k).ok = true) : ∃ f ∈ (requestMore p.sort files p.parName k).files, f.paused = false := by
  by_cases hle : k ≤ total files
  · obtain ⟨chosen, hsub, -, hmin, -, -, hf, -⟩ := enough_is_unpaused h.sorts h.isPar hd hle
    rw [hf]
    cases chosen with
    | nil => have := (hmin hk).enough; simp [total] at this; omega
    | cons c l =>
      refine ⟨_, List.mem_map.2 ⟨c, hsub c (List.mem_cons_self ..), rfl⟩, ?_⟩
      split
      · rfl
      · rename_i hn
        cases hp : c.paused with
        | false => rfl
        | true => exact absurd ⟨List.mem_cons_self .., hp⟩ hn
  · rw [not_enough h.isPar hd hk (by omega)] at ho ⊢
    dsimp only at ho ⊢
    rw [List.any_eq_true] at ho
    obtain ⟨f, hf, hp⟩ := ho
    rw [Bool.and_eq_true, Bool.not_eq_true'] at hp
    exact ⟨f, hf, hp.2⟩

theorem request_none {p : Par} (h : Ok p) {files : List PFile} (hd : Distinct files) {k : Int} (hk : 0 < k)
    (ho : (requestMore p.sort files p.parName k).ok = false) : total files < k ∧ ∀ f ∈ files, f.par = true → f.paused = true := by
  by_cases hle : k ≤ total files
  · obtain ⟨_, _, _, _, _, hk', _⟩ := enough_is_unpaused h.sorts h.isPar hd hle
    rw [hk'] at ho; exact nomatch ho
  · refine ⟨by omega, ?_⟩
    rw [not_enough h.isPar hd hk (by omega)] at ho
    dsimp only at ho
    intro f hf hp
    have := (List.any_eq_false.1 ho) f hf
    simp only [hp, Bool.true_and, Bool.not_eq_true, Bool.not_eq_false'] at this
    exact this

/-- Some file of the queue is not paused. -/
def Open (files : List PFile) : Prop := ∃ f ∈ files, f.paused = false

/-- The needed blocks are known to be missing. -/
def Missing : Pc → Prop
  | .look | .request | .reset _ | .wait | .woken | .load | .read _ | .ended .notEnough => True
  | _ => False

structure Inv (p : Par) (s : St) : Prop where
  order : s.done = s.loaded ++ hand s.pc ++ s.added
  ids : Distinct s.files
  lacks : Missing s.pc → 0 < needed p s
  askedIds : ∀ ok, s.pc = .reset ok → Distinct s.asked.1 ∧ s.asked.2 = needed p s ∧ ok = (requestMore p.sort s.asked.1 p.parName s.asked.2).ok
  opened : s.pc = .reset true → s.lost = false → s.added ≠ [] ∨ Open s.files
  waiting : s.pc = .wait → (s.added ≠ [] → s.changed = true) ∧ (s.lost = false → s.changed = true ∨ Open s.files)
  enough : s.pc = .ended .possible → needed p s ≤ 0 ∧ p.main = false
  again : s.pc = .ended .again → p.main = true ∧ s.loaded ≠ []

theorem Inv.moved {p : Par} {s : St} (h : Inv p s) (pc : Pc) (hh : hand pc = hand s.pc) (hl : Missing pc → 0 < needed p s)
    (hr : ∀ ok, pc ≠ .reset ok) (hw : pc ≠ .wait) (he : pc = .ended .possible → needed p s ≤ 0 ∧ p.main = false) (ha : pc ≠ .ended .again) :
    Inv p { s with pc := pc } where
  order := by show s.done = s.loaded ++ hand pc ++ s.added; rw [hh]; exact h.order
  ids := h.ids
  lacks := hl
  askedIds := fun ok e => absurd e (hr ok)
  opened := fun e => absurd e (hr true)
  waiting := fun e => absurd e hw
  enough := he
  again := fun e => absurd e ha

theorem work_inv {p : Par} (hp : Ok p) {s : St} (h : Inv p s) : Inv p (work p s) := by
  unfold work
  split
  · rename_i hpc
    split
    · exact h.moved _ (by rw [hpc]; rfl) (fun x => x.elim) nofun nofun nofun nofun
    · split
      · rename_i hc
        exact h.moved _ (by rw [hpc]; rfl) (fun x => x.elim) nofun nofun (fun _ => ⟨hc.2, hc.1⟩) nofun
      · rename_i hc
        refine h.moved _ (by rw [hpc]; rfl) (fun _ => ?_) nofun nofun nofun nofun
        cases hm : p.main with
        | true => unfold needed; rw [if_pos hm]; omega
        | false =>
          have : ¬ needed p s ≤ 0 := fun x => hc ⟨hm, x⟩
          omega
  · rename_i hpc
    have hl := h.lacks (by rw [hpc]; trivial)
    split
    · exact h.moved _ (by rw [hpc]; rfl) (fun _ => hl) nofun nofun nofun nofun
    · rename_i hne
      split
      · rename_i hm
        constructor
        · have := h.order; rw [hpc] at this; simpa [hand] using this
        · exact h.ids
        · exact fun x => x.elim
        · exact nofun
        · exact nofun
        · exact nofun
        · exact nofun
        · exact fun _ => ⟨hm, fun x => hne (List.append_eq_nil_iff.1 x).2⟩
      · exact h.moved _ (by rw [hpc]; rfl) (fun _ => hl) nofun nofun nofun nofun
  · rename_i hpc
    have hl := h.lacks (by rw [hpc]; trivial)
    have hi := request_ids p.sort s.files p.parName (needed p s)
    constructor
    · have := h.order; rw [hpc] at this; exact this
    · show ((requestMore p.sort s.files p.parName (needed p s)).files.map PFile.id).Nodup
      rw [hi]; exact h.ids
    · exact fun _ => hl
    · intro ok e
      dsimp only at e
      cases e
      exact ⟨h.ids, rfl, rfl⟩
    · intro e _
      dsimp only at e
      exact Or.inr (request_open hp h.ids hl (by injection e))
    · exact nofun
    · exact nofun
    · exact nofun
  · rename_i ok hpc
    have hl := h.lacks (by rw [hpc]; trivial)
    have ho := h.order
    rw [hpc] at ho
    dsimp only
    have hb : ∀ pc, hand pc = [] → (Missing pc → 0 < needed p s) → (∀ ok, pc ≠ .reset ok) → pc ≠ .wait → pc ≠ .ended .possible → pc ≠ .ended .again →
        Inv p { s with changed := false, pc := pc } := by
      intro pc hh hm hr hw he ha
      exact ⟨by show s.done = s.loaded ++ hand pc ++ s.added; rw [hh]; exact ho, h.ids, hm, fun ok e => absurd e (hr ok), fun e => absurd e (hr true),
        fun e => absurd e hw, fun e => absurd e he, fun e => absurd e ha⟩
    split
    · exact hb _ rfl (fun _ => hl) nofun nofun nofun nofun
    · rename_i hc
      split
      · rename_i hn
        have hok : ok = true := by
          cases ok with
          | true => rfl
          | false => exact absurd ⟨rfl, hn⟩ hc
        refine ⟨ho, h.ids, fun _ => hl, nofun, nofun, fun _ => ⟨fun x => absurd hn x, fun x => ?_⟩, nofun, nofun⟩
        rcases h.opened (by rw [hpc, hok]) x with y | y
        · exact absurd hn y
        · exact Or.inr y
      · split
        · exact hb _ rfl (fun x => x.elim) nofun nofun nofun nofun
        · exact hb _ rfl (fun _ => hl) nofun nofun nofun nofun
  · rename_i hpc
    have hl := h.lacks (by rw [hpc]; trivial)
    split
    · exact h.moved _ (by rw [hpc]; rfl) (fun x => x.elim) nofun nofun nofun nofun
    · split
      · split
        · exact h.moved _ (by rw [hpc]; rfl) (fun x => x.elim) nofun nofun nofun nofun
        · exact h.moved _ (by rw [hpc]; rfl) (fun _ => hl) nofun nofun nofun nofun
      · exact h
  · rename_i hpc
    have hl := h.lacks (by rw [hpc]; trivial)
    split
    · exact h.moved _ (by rw [hpc]; rfl) (fun x => x.elim) nofun nofun nofun nofun
    · exact h.moved _ (by rw [hpc]; rfl) (fun _ => hl) nofun nofun nofun nofun
  · rename_i hpc
    have hl := h.lacks (by rw [hpc]; trivial)
    refine ⟨?_, h.ids, fun _ => hl, nofun, nofun, nofun, nofun, nofun⟩
    have := h.order
    rw [hpc] at this
    simpa [hand] using this
  · rename_i l hpc
    have ho := h.order
    rw [hpc] at ho
    split
    · exact ⟨by simpa [hand] using ho, h.ids, fun x => x.elim, nofun, nofun, nofun, nofun, nofun⟩
    · exact ⟨by simpa [hand] using ho, h.ids, fun x => x.elim, nofun, nofun, nofun, nofun, nofun⟩
  · rename_i hpc
    split
    · rename_i hn
      refine h.moved _ (by rw [hpc]; rfl) (fun x => x.elim) nofun nofun (fun _ => ⟨hn, ?_⟩) nofun
      cases hm : p.main with
      | false => rfl
      | true => unfold needed at hn; rw [if_pos hm] at hn; omega
    · exact h.moved _ (by rw [hpc]; rfl) (fun x => x.elim) nofun nofun nofun nofun
  · exact h

theorem step_inv {p : Par} (hp : Ok p) {s : St} (h : Inv p s) (e : Ev) : Inv p (step p s e) := by
  cases e with
  | work => exact work_inv hp h
  | complete id =>
    show Inv p (match s.files.find? (fun f => f.id == id) with | some f => _ | none => s)
    split
    · rename_i f hf
      refine ⟨?_, ?_, h.lacks, h.askedIds, fun _ _ => Or.inl (by simp), fun _ => ⟨fun _ => rfl, fun _ => Or.inl rfl⟩, h.enough, h.again⟩
      · show s.done ++ [f] = s.loaded ++ hand s.pc ++ (s.added ++ [f])
        rw [h.order, ← List.append_assoc]
      · exact h.ids.sublist (List.filter_sublist.map _)
    · exact h
  | delete id =>
    show Inv p (if _ then _ else s)
    split
    · exact ⟨h.order, h.ids.sublist (List.filter_sublist.map _), h.lacks, h.askedIds, fun _ x => Bool.noConfusion x,
        fun _ => ⟨fun _ => rfl, fun x => Bool.noConfusion x⟩, h.enough, h.again⟩
    · exact h
  | pause id on =>
    have hid : (s.files.map (fun f => if f.id == id then { f with paused := on } else f)).map PFile.id = s.files.map PFile.id := by
      rw [List.map_map]
      refine List.map_congr_left (fun f _ => ?_)
      show (if f.id == id then { f with paused := on } else f : PFile).id = f.id
      split <;> rfl
    have hop : (s.lost || on) = false → Open s.files → Open (s.files.map (fun f => if f.id == id then { f with paused := on } else f)) := by
      rintro hl ⟨f, hf, hq⟩
      rw [Bool.or_eq_false_iff] at hl
      refine ⟨_, List.mem_map.2 ⟨f, hf, rfl⟩, ?_⟩
      split
      · exact hl.2
      · exact hq
    have hlost : (s.lost || on) = false → s.lost = false := fun x => (Bool.or_eq_false_iff.1 x).1
    refine ⟨h.order, ?_, h.lacks, h.askedIds, fun x y => ?_, fun x => ⟨(h.waiting x).1, fun y => ?_⟩, h.enough, h.again⟩
    · show ((s.files.map (fun f => if f.id == id then { f with paused := on } else f)).map PFile.id).Nodup
      rw [hid]; exact h.ids
    · rcases h.opened x (hlost y) with z | z
      · exact Or.inl z
      · exact Or.inr (hop y z)
    · rcases (h.waiting x).2 (hlost y) with z | z
      · exact Or.inl z
      · exact Or.inr (hop y z)
  | signal => exact ⟨h.order, h.ids, h.lacks, h.askedIds, h.opened, fun _ => ⟨fun _ => rfl, fun _ => Or.inl rfl⟩, h.enough, h.again⟩
  | cancel => exact ⟨h.order, h.ids, h.lacks, h.askedIds, h.opened, h.waiting, h.enough, h.again⟩

theorem exec_inv {p : Par} (hp : Ok p) : ∀ (evs : List Ev) {s : St}, Inv p s → Inv p (exec p s evs) := by
  intro evs
  induction evs with
  | nil => intro s h; exact h
  | cons e l ih => intro s h; exact ih (step_inv hp h e)

theorem start_inv (p : Par) {files : List PFile} (added : List PFile) (hd : Distinct files) : Inv p (start files added) :=
  ⟨by simp [start, hand], hd, fun x => x.elim, nofun, nofun, nofun, nofun, nofun⟩

/-! ### The properties -/

/-- No file which was downloaded is lost: in the order of their completion they were given to libpar2, are just being read, or wait to be. -/
theorem none_lost {p : Par} (hp : Ok p) {files : List PFile} (added : List PFile) (hd : Distinct files) (evs : List Ev) :
    let s := exec p (start files added) evs
    s.done = s.loaded ++ hand s.pc ++ s.added :=
  (exec_inv hp evs (start_inv p added hd)).order

/-- It gives up for want of blocks only if all files which were downloaded have been tried, blocks are missing, and when it asked for more the
queue had neither enough blocks nor any par2-file which was being downloaded. -/
theorem gives_up {p : Par} (hp : Ok p) {files : List PFile} (added : List PFile) (hd : Distinct files) (evs : List Ev) :
    let s := exec p (start files added) evs
    (∀ o, s.pc ≠ .ended o) → (work p s).pc = .ended .notEnough →
    s.done = s.loaded ∧ 0 < needed p s ∧ total s.asked.1 < needed p s ∧ ∀ f ∈ s.asked.1, f.par = true → f.paused = true := by
  intro s hne hw
  have h : Inv p s := exec_inv hp evs (start_inv p added hd)
  clear_value s
  unfold work at hw
  split at hw
  · split at hw
    · exact nomatch hw
    · split at hw <;> exact nomatch hw
  · split at hw
    · exact nomatch hw
    · split at hw <;> exact nomatch hw
  · exact nomatch hw
  · rename_i ok hpc
    dsimp only at hw
    split at hw
    · rename_i hc
      obtain ⟨hi, hk, ho⟩ := h.askedIds ok hpc
      have hl := h.lacks (by rw [hpc]; trivial)
      rw [hc.1] at ho
      have hr := request_none hp hi (by rw [hk]; exact hl) ho.symm
      rw [hk] at hr
      refine ⟨?_, hl, hr⟩
      have := h.order
      rw [hpc, hc.2] at this
      simpa [hand] using this
    · split at hw
      · exact nomatch hw
      · split at hw <;> exact nomatch hw
  · rename_i hpc
    split at hw
    · exact nomatch hw
    · split at hw
      · split at hw <;> exact nomatch hw
      · rw [hpc] at hw; exact nomatch hw
  · split at hw <;> exact nomatch hw
  · exact nomatch hw
  · dsimp only at hw; split at hw <;> exact nomatch hw
  · dsimp only at hw; split at hw <;> exact nomatch hw
  · rename_i o hpc
    exact absurd hpc (hne o)

/-- It says that a repair is possible only if there are enough blocks; and it tries the main par2-files again only if there are new ones. -/
theorem result_true {p : Par} (hp : Ok p) {files : List PFile} (added : List PFile) (hd : Distinct files) (evs : List Ev) :
    let s := exec p (start files added) evs
    (s.pc = .ended .possible → p.missing ≤ p.have_ + p.gives s.loaded) ∧ (s.pc = .ended .again → p.main = true ∧ s.loaded ≠ []) := by
  intro s
  have h : Inv p s := exec_inv hp evs (start_inv p added hd)
  refine ⟨fun x => ?_, h.again⟩
  have := h.enough x
  unfold needed at this
  rw [this.2, if_neg Bool.false_ne_true] at this
  omega

/-- The thread has something to do. -/
def busy (s : St) : Bool :=
  match s.pc with
  | .ended _ => false
  | .wait => s.changed || s.stop
  | _ => true

/-- It waits only while something can come: a file of the queue is not paused, and when one is finished or deleted it goes on. Unless since the
last request a file was deleted or paused. -/
theorem waits_for_something {p : Par} (hp : Ok p) {files : List PFile} (added : List PFile) (hd : Distinct files) (evs : List Ev) :
    let s := exec p (start files added) evs
    s.pc = .wait → busy s = false → s.lost = false →
    (∃ f ∈ s.files, f.paused = false) ∧ ∀ f ∈ s.files, busy (step p s (.complete f.id)) = true ∧ busy (step p s (.delete f.id)) = true := by
  intro s hpc hb hl
  have h : Inv p s := exec_inv hp evs (start_inv p added hd)
  clear_value s
  unfold busy at hb
  rw [hpc] at hb
  dsimp only at hb
  rw [Bool.or_eq_false_iff] at hb
  refine ⟨?_, fun f hf => ⟨?_, ?_⟩⟩
  · rcases (h.waiting hpc).2 hl with x | x
    · rw [hb.1] at x; exact nomatch x
    · exact x
  · show busy (match s.files.find? (fun g => g.id == f.id) with | some f => _ | none => s) = true
    split
    · unfold busy; dsimp only; rw [hpc]; rfl
    · rename_i hn
      have := List.find?_eq_none.1 hn f hf
      simp at this
  · show busy (if _ then _ else s) = true
    rw [if_pos (List.any_eq_true.2 ⟨f, hf, by simp⟩)]
    unfold busy; dsimp only; rw [hpc]; rfl

/-! ### It ends -/

def rank (s : St) : Nat :=
  match s.pc with
  | .top => if s.added = [] then 8 else 4
  | .look => if s.added = [] then 7 else 3
  | .request => 6
  | .reset _ => 5
  | .wait => if s.changed then 13 else 1
  | .woken => if s.added = [] then 12 else 2
  | .load => if s.added = [] then 11 else 1
  | .read _ => 10
  | .verify => 9
  | .ended _ => 0

/-- The steps left if nothing happens. -/
def left (s : St) : Nat := 12 * s.added.length + rank s

theorem length_pos_of {l : List PFile} (h : l ≠ []) : 1 ≤ l.length := by
  cases l with
  | nil => exact absurd rfl h
  | cons _ _ => exact Nat.succ_le_succ (Nat.zero_le _)

theorem work_left (p : Par) (s : St) (h : busy s = true) : left (work p s) + 1 ≤ left s := by
  unfold busy at h
  obtain ⟨files, added, changed, stop, pc, loaded, done, asked, lost⟩ := s
  have hpos := @length_pos_of added
  unfold left rank work
  cases pc <;> dsimp only at h ⊢
  case ended => exact nomatch h
  all_goals grind

/-- Something which the thread is told. -/
def tells : Ev → Bool
  | .complete _ | .delete _ | .signal => true
  | _ => false

theorem idle_work (p : Par) (s : St) (h : busy s = false) : work p s = s := by
  obtain ⟨files, added, changed, stop, pc, loaded, done, asked, lost⟩ := s
  unfold busy at h
  unfold work
  cases pc <;> dsimp only at h ⊢
  case wait =>
    rw [Bool.or_eq_false_iff] at h
    simp [h]
  all_goals exact absurd h (by decide)

theorem step_left (p : Par) (s : St) (e : Ev) (h : e ≠ .work) : left (step p s e) ≤ left s + if tells e then 24 else 0 := by
  obtain ⟨files, added, changed, stop, pc, loaded, done, asked, lost⟩ := s
  cases e with
  | work => exact absurd rfl h
  | complete id =>
    simp only [step, tells, if_true]
    split
    · unfold left rank
      cases pc <;> simp <;> (try split) <;> omega
    · omega
  | delete id =>
    simp only [step, tells, if_true]
    split
    · unfold left rank
      cases pc <;> simp <;> (try split) <;> omega
    · omega
  | signal =>
    simp only [step, tells, if_true]
    unfold left rank
    cases pc <;> simp <;> (try split) <;> omega
  | pause id on => exact Nat.le_refl _
  | cancel => exact Nat.le_refl _

/-- The steps in which the thread does something. -/
def works (p : Par) : St → List Ev → Nat
  | _, [] => 0
  | s, e :: l => (if e = .work ∧ busy s = true then 1 else 0) + works p (step p s e) l

/-- It does not run in circles: the number of its steps is limited by the number of files and of what it is told. -/
theorem work_limited (p : Par) (evs : List Ev) : ∀ s, works p s evs + left (exec p s evs) ≤ left s + 24 * evs.countP tells := by
  induction evs with
  | nil => intro s; simp [works, exec]
  | cons e l ih =>
    intro s
    have h := ih (step p s e)
    show (if e = .work ∧ busy s = true then 1 else 0) + works p (step p s e) l + left (exec p (step p s e) l) ≤ _
    rw [List.countP_cons]
    by_cases hw : e = .work
    · subst hw
      have ht : tells .work = false := rfl
      cases hb : busy s with
      | true =>
        have hl := work_left p s hb
        have hs : left (step p s .work) + 1 ≤ left s := hl
        rw [if_pos ⟨rfl, rfl⟩, ht]
        simp only [Bool.false_eq_true, if_false]
        omega
      | false =>
        have hs : step p s .work = s := idle_work p s hb
        rw [hs] at h ⊢
        rw [if_neg (fun x => Bool.noConfusion x.2), ht]
        simp only [Bool.false_eq_true, if_false]
        omega
    · have hl := step_left p s e hw
      rw [if_neg (fun x => hw x.1)]
      cases ht : tells e with
      | true => rw [ht] at hl; simp only [if_true] at hl ⊢; omega
      | false => rw [ht] at hl; simp only [Bool.false_eq_true, if_false] at hl ⊢; omega

theorem runs_out (p : Par) : ∀ (n : Nat) (s : St), left s ≤ n → busy (exec p s (List.replicate n .work)) = false := by
  intro n
  induction n with
  | zero =>
    intro s h
    cases hb : busy s with
    | false => exact hb
    | true => have := work_left p s hb; omega
  | succ n ih =>
    intro s h
    rw [List.replicate_succ]
    show busy (exec p (work p s) (List.replicate n .work)) = false
    cases hb : busy s with
    | false =>
      rw [idle_work p s hb]
      have key : ∀ (m : Nat) (s : St), busy s = false → busy (exec p s (List.replicate m .work)) = false := by
        intro m
        induction m with
        | zero => intro s h; exact h
        | succ m ih2 =>
          intro s h
          rw [List.replicate_succ]
          show busy (exec p (work p s) (List.replicate m .work)) = false
          rw [idle_work p s h]
          exact ih2 s h
      exact key n s hb
    | true =>
      have := work_left p s hb
      exact ih _ (by omega)

/-- Whatever has happened: if nothing more does, it soon has ended or waits. -/
theorem ends_or_waits (p : Par) (s : St) : ∃ n, ∀ m, n ≤ m → (∃ o, (exec p s (List.replicate m .work)).pc = .ended o) ∨
    ((exec p s (List.replicate m .work)).pc = .wait ∧ (exec p s (List.replicate m .work)).changed = false) := by
  refine ⟨left s, fun m hm => ?_⟩
  have h := runs_out p m s hm
  unfold busy at h
  split at h
  · rename_i o ho; exact Or.inl ⟨o, ho⟩
  · rename_i hw; exact Or.inr ⟨hw, (Bool.or_eq_false_iff.1 h).1⟩
  · exact nomatch h

theorem stop_stays (p : Par) : ∀ (evs : List Ev) (s : St), s.stop = true → (exec p s evs).stop = true := by
  have hw : ∀ s : St, (work p s).stop = s.stop := by
    intro s; unfold work; split <;> (try dsimp only) <;> (try split) <;> (try split) <;> (try split) <;> rfl
  have hs : ∀ (s : St) (e : Ev), s.stop = true → (step p s e).stop = true := by
    intro s e h
    cases e with
    | work => exact (hw s).trans h
    | complete id => simp only [step]; split <;> exact h
    | delete id => simp only [step]; split <;> exact h
    | pause id on => exact h
    | signal => exact h
    | cancel => rfl
  intro evs
  induction evs with
  | nil => intro s h; exact h
  | cons e l ih => intro s h; exact ih _ (hs s e h)

/-- After cancelling it ends soon, also if the thread is waiting. -/
theorem cancel_ends (p : Par) (s : St) : ∃ n, ∀ m, n ≤ m → ∃ o, (exec p s (.cancel :: List.replicate m .work)).pc = .ended o := by
  refine ⟨left (step p s .cancel), fun m hm => ?_⟩
  have h := runs_out p m _ hm
  have hstop := stop_stays p (List.replicate m .work) (step p s .cancel) rfl
  show ∃ o, (exec p (step p s .cancel) (List.replicate m .work)).pc = .ended o
  unfold busy at h
  split at h
  · rename_i o ho; exact ⟨o, ho⟩
  · rw [hstop, Bool.or_true] at h; exact nomatch h
  · exact nomatch h

/-! ### Where it waits for nothing -/

/-- With nothing in the queue it waits until it is cancelled or another download changes. -/
theorem empty_waits (p : Par) : ∀ (evs : List Ev) (s : St), s.pc = .wait → s.changed = false → s.stop = false → s.files = [] →
    Ev.signal ∉ evs → Ev.cancel ∉ evs → (exec p s evs).pc = .wait := by
  intro evs
  induction evs with
  | nil => intro s h _ _ _ _ _; exact h
  | cons e l ih =>
    intro s hpc hc hs hf h1 h2
    have key : step p s e = s ∨ ∃ b, step p s e = { s with files := [], lost := b } := by
      cases e with
      | work => left; exact idle_work p s (by unfold busy; rw [hpc]; dsimp only; rw [hc, hs]; rfl)
      | complete id => left; simp [step, hf]
      | delete id => left; simp [step, hf]
      | pause id on => right; exact ⟨s.lost || on, by simp [step, hf]⟩
      | signal => exact absurd (List.mem_cons_self ..) h1
      | cancel => exact absurd (List.mem_cons_self ..) h2
    have h1' := fun x => h1 (List.mem_cons_of_mem _ x)
    have h2' := fun x => h2 (List.mem_cons_of_mem _ x)
    show (exec p (step p s e) l).pc = .wait
    rcases key with k | ⟨b, k⟩
    · rw [k]; exact ih s hpc hc hs hf h1' h2'
    · rw [k]; exact ih _ hpc hc hs rfl h1' h2'

def exFile : PFile := ⟨1, lit "a.vol0+1.par2", true, true, true, false⟩

/-- One block is missing; the files have one each. -/
def exPar (main : Bool) : Par := ⟨main, 1, 0, fun l => l.length, exSort, lit "a.par2"⟩

theorem exPar_ok (main : Bool) : Ok (exPar main) := ⟨by show (ParName.parse true (FileName.baseName (lit "a.par2"))).isSome = true; decide +kernel, exSort_sorts⟩

/-- The last par2-file is deleted just after the check has asked for it: this is not noticed, and the check waits for ever for a file which does not
exist. -/
theorem lost_wakeup (main : Bool) : ∃ before : List Ev, ∀ after : List Ev, Ev.signal ∉ after → Ev.cancel ∉ after →
    (exec (exPar main) (start [exFile] []) (before ++ after)).pc = .wait ∧ (exec (exPar main) (start [exFile] []) before).files = [] := by
  refine ⟨[.work, .work, .work, .delete 1, .work], fun after h1 h2 => ?_⟩
  have hb : ∀ l, exec (exPar main) (start [exFile] []) ([.work, .work, .work, .delete 1, .work] ++ l) =
      exec (exPar main) (exec (exPar main) (start [exFile] []) [.work, .work, .work, .delete 1, .work]) l := by
    intro l; unfold exec; rw [List.foldl_append]
  rw [hb]
  have hs : (exec (exPar main) (start [exFile] []) [.work, .work, .work, .delete 1, .work]).pc = .wait ∧
      (exec (exPar main) (start [exFile] []) [.work, .work, .work, .delete 1, .work]).changed = false ∧
      (exec (exPar main) (start [exFile] []) [.work, .work, .work, .delete 1, .work]).stop = false ∧
      (exec (exPar main) (start [exFile] []) [.work, .work, .work, .delete 1, .work]).files = [] := by
    cases main <;> decide +kernel
  exact ⟨empty_waits _ after _ hs.1 hs.2.1 hs.2.2.1 hs.2.2.2 h1 h2, hs.2.2.2⟩

/-- If the file is paused while the check waits for it, it goes on waiting; pausing and resuming are not told. -/
theorem paused_waits (p : Par) (s : St) (hpc : s.pc = .wait) (hb : busy s = false) (evs : List Ev)
    (h : ∀ e ∈ evs, e = .work ∨ ∃ id on, e = .pause id on) : (exec p s evs).pc = .wait := by
  induction evs generalizing s with
  | nil => exact hpc
  | cons e l ih =>
    show (exec p (step p s e) l).pc = .wait
    have hl := fun x hx => h x (List.mem_cons_of_mem _ hx)
    rcases h e (List.mem_cons_self ..) with rfl | ⟨id, on, rfl⟩
    · have : step p s .work = s := idle_work p s hb
      rw [this]; exact ih s hpc hb hl
    · refine ih _ hpc ?_ hl
      unfold busy at hb ⊢
      rw [hpc] at hb
      show (match s.pc with | .ended _ => false | .wait => s.changed || s.stop | _ => true) = false
      rw [hpc]; exact hb

/-- A run: the file is asked for, finished, loaded, and a repair is possible. -/
example : (exec (exPar false) (start [exFile] []) [.work, .work, .work, .work, .complete 1, .work, .work, .work, .work, .work]).pc = .ended .possible ∧
    (exec (exPar false) (start [exFile] []) [.work, .work, .work, .work]).pc = .wait ∧
    (exec (exPar false) (start [exFile] []) [.work, .work, .work, .work]).lost = false ∧
    (exec (exPar false) (start [] []) [.work, .work, .work, .work]).pc = .ended .notEnough ∧
    (exec (exPar true) (start [exFile] []) [.work, .work, .work, .work, .complete 1, .work, .work, .work]).pc = .ended .again := by decide +kernel

end Verif.ParWait
