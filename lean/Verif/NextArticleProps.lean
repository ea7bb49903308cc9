/-
C25: which article is downloaded next.
-/
import Verif.NextArticle

namespace Verif.NextArticle

/-! ### Specification -/

/-- The files of the queue with their entries, in the order of the queue. -/
def all (q : List Entry) : List (Entry × File) := q.flatMap (fun e => e.files.map (fun f => (e, f)))

/-- The entry may be downloaded now: it has files which are not paused (by its counter), and the program is not paused, or it is forced. -/
def permitted (env : Env) (e : Entry) : Prop :=
  entryPaused e = false ∧ (env.paused = false ∧ env.quota = false ∨ e.priority ≥ 900)

/-- The file may be downloaded now: it is not paused, not deleted, and old enough. -/
def free (env : Env) (f : File) : Prop :=
  f.paused = false ∧ f.deleted = false ∧ ¬ (env.delay > 0 ∧ f.time + env.delay ≥ env.now)

/-- An article of the file is left. -/
def left (env : Env) (f : File) : Prop := true ∈ articles env f

/-- There is something to be downloaded in the file now. -/
def ready (env : Env) (p : Entry × File) : Prop := permitted env p.1 ∧ free env p.2 ∧ left env p.2

/-- `a` comes before `b`: it has extra priority and `b` has not, or both or none have it and its entry's priority is higher. -/
def precedes (a b : Entry × File) : Prop :=
  (a.2.extra = true ∧ b.2.extra = false) ∨ (a.2.extra = b.2.extra ∧ a.1.priority > b.1.priority)

instance (env : Env) (e : Entry) : Decidable (permitted env e) := by unfold permitted; infer_instance
instance (env : Env) (f : File) : Decidable (free env f) := by unfold free; infer_instance
instance (env : Env) (f : File) : Decidable (left env f) := by unfold left; infer_instance
instance (env : Env) (p : Entry × File) : Decidable (ready env p) := by unfold ready; infer_instance
instance (a b : Entry × File) : Decidable (precedes a b) := by unfold precedes; infer_instance

/-- `p` is the first of the list which no other precedes. -/
def FirstBest (l : List (Entry × File)) (p : Entry × File) : Prop :=
  ∃ pre post, l = pre ++ p :: post ∧ (∀ x ∈ pre, precedes p x) ∧ ∀ x ∈ post, ¬ precedes x p

/-! ### The best of a list -/

theorem precedes_trans {a b c : Entry × File} (h1 : precedes a b) (h2 : precedes b c) : precedes a c := by
  unfold precedes at *
  rcases h1 with ⟨h1, h1'⟩ | ⟨h1, h1'⟩ <;> rcases h2 with ⟨h2, h2'⟩ | ⟨h2, h2'⟩
  · rw [h1'] at h2; cases h2
  · exact Or.inl ⟨h1, h2 ▸ h1'⟩
  · exact Or.inl ⟨h1.trans h2, h2'⟩
  · exact Or.inr ⟨h1.trans h2, by omega⟩

theorem not_precedes_trans {a b c : Entry × File} (h1 : ¬ precedes a b) (h2 : ¬ precedes b c) : ¬ precedes a c := by
  unfold precedes at *
  cases ha : a.2.extra <;> cases hb : b.2.extra <;> cases hc : c.2.extra <;> simp_all <;> omega

theorem precedes_of {a b c : Entry × File} (h1 : precedes a b) (h2 : ¬ precedes c b) : precedes a c := by
  unfold precedes at *
  cases ha : a.2.extra <;> cases hb : b.2.extra <;> cases hc : c.2.extra <;> simp_all <;> omega

theorem precedes_of' {a b c : Entry × File} (h1 : ¬ precedes b a) (h2 : precedes b c) : precedes a c := by
  unfold precedes at *
  cases ha : a.2.extra <;> cases hb : b.2.extra <;> cases hc : c.2.extra <;> simp_all <;> omega

/-- The better of two, the first if there is none. -/
def keep (p : Option (Entry × File)) (x : Entry × File) : Option (Entry × File) :=
  match p with
  | none => some x
  | some y => if precedes x y then some x else some y

theorem keep_some {l : List (Entry × File)} {p : Entry × File} : ∃ r, l.foldl keep (some p) = some r := by
  induction l generalizing p with
  | nil => exact ⟨p, rfl⟩
  | cons x l ih =>
    simp only [List.foldl_cons, keep]
    split
    · exact ih
    · exact ih

theorem best_cons {l : List (Entry × File)} {p r : Entry × File} (h : l.foldl keep (some p) = some r) : FirstBest (p :: l) r := by
  induction l generalizing p with
  | nil =>
    simp only [List.foldl_nil, Option.some.injEq] at h
    subst h
    exact ⟨[], [], rfl, by simp, by simp⟩
  | cons x l ih =>
    simp only [List.foldl_cons, keep] at h
    by_cases hx : precedes x p
    · rw [if_pos hx] at h
      obtain ⟨pre, post, hl, hp, hq⟩ := ih h
      refine ⟨p :: pre, post, by rw [hl]; rfl, ?_, hq⟩
      intro y hy
      rcases List.mem_cons.1 hy with rfl | hy
      · cases pre with
        | nil =>
          simp only [List.nil_append, List.cons.injEq] at hl
          rw [← hl.1]; exact hx
        | cons z pre =>
          simp only [List.cons_append, List.cons.injEq] at hl
          have := hp z List.mem_cons_self
          rw [← hl.1] at this
          exact precedes_trans this hx
      · exact hp y hy
    · rw [if_neg hx] at h
      obtain ⟨pre, post, hl, hp, hq⟩ := ih h
      cases pre with
      | nil =>
        simp only [List.nil_append, List.cons.injEq] at hl
        obtain ⟨rfl, rfl⟩ := hl
        refine ⟨[], x :: l, rfl, by simp, ?_⟩
        intro y hy
        rcases List.mem_cons.1 hy with rfl | hy
        · exact hx
        · exact hq y hy
      | cons z pre =>
        simp only [List.cons_append, List.cons.injEq] at hl
        obtain ⟨rfl, rfl⟩ := hl
        have hpz := hp p List.mem_cons_self
        refine ⟨p :: x :: pre, post, rfl, ?_, hq⟩
        intro y hy
        rcases List.mem_cons.1 hy with rfl | hy
        · exact hpz
        · rcases List.mem_cons.1 hy with rfl | hy
          · exact precedes_of hpz hx
          · exact hp y (List.mem_cons_of_mem _ hy)

theorem best_of {l : List (Entry × File)} {r : Entry × File} (h : l.foldl keep none = some r) : FirstBest l r := by
  cases l with
  | nil => cases h
  | cons x l => exact best_cons h

/-- The best of a list is the best of a part of the list which it belongs to. -/
theorem best_filter {l : List (Entry × File)} {r : Entry × File} (P : Entry × File → Bool) (h : FirstBest l r) (hr : P r = true) :
    FirstBest (l.filter P) r := by
  obtain ⟨pre, post, hl, hp, hq⟩ := h
  refine ⟨pre.filter P, post.filter P, ?_, ?_, ?_⟩
  · rw [hl, List.filter_append, List.filter_cons_of_pos hr]
  · intro x hx; exact hp x (List.mem_filter.1 hx).1
  · intro x hx; exact hq x (List.mem_filter.1 hx).1

/-! ### The choice of a file -/

/-- The file may be taken in this turn. -/
def open' (env : Env) (checked : List Nat) (f : File) : Bool := !checked.contains f.id && !waits env f && !f.paused && !f.deleted

theorem open_iff {env : Env} {checked : List Nat} {f : File} : open' env checked f = true ↔ f.id ∉ checked ∧ free env f := by
  have hw : waits env f = true ↔ (env.delay > 0 ∧ f.time + env.delay ≥ env.now) := by unfold waits; simp
  unfold open' free
  rw [← hw]
  cases waits env f <;> simp [and_assoc]

theorem higher_iff {e e' : Entry} {f f' : File} : fileHigher e f e' f' = true ↔ precedes (e, f) (e', f') := by
  unfold fileHigher precedes
  cases f.extra <;> cases f'.extra <;> simp

theorem permit_iff {env : Env} {e : Entry} : (!entryPaused e && (!(env.paused || env.quota) || forced e)) = true ↔ permitted env e := by
  unfold permitted forced
  cases entryPaused e <;> cases env.paused <;> cases env.quota <;> simp

theorem files_fold (env : Env) (checked : List Nat) (e : Entry) (l : List File) (p : Option (Entry × File)) :
    l.foldl (fileStep env checked e) p = ((l.filter (open' env checked)).map (fun f => (e, f))).foldl keep p := by
  induction l generalizing p with
  | nil => rfl
  | cons f l ih =>
    rw [List.foldl_cons, ih]
    by_cases ho : open' env checked f = true
    · rw [List.filter_cons_of_pos ho, List.map_cons, List.foldl_cons]
      congr 1
      unfold fileStep
      rw [show (!checked.contains f.id && !waits env f && !f.paused && !f.deleted) = true from ho, Bool.true_and]
      cases p with
      | none => rfl
      | some y =>
        unfold keep
        dsimp only
        by_cases hh : precedes (e, f) y
        · rw [if_pos hh, if_pos (higher_iff.2 hh)]
        · rw [if_neg hh, if_neg (fun h => hh (higher_iff.1 h))]
    · rw [List.filter_cons_of_neg ho]
      congr 1
      unfold fileStep
      rw [show (!checked.contains f.id && !waits env f && !f.paused && !f.deleted) = false from by simpa [open'] using ho, Bool.false_and]
      rfl

/-- The files of an entry which may be taken. -/
def ofEntry (env : Env) (checked : List Nat) (e : Entry) : List (Entry × File) :=
  if permitted env e then (e.files.filter (open' env checked)).map (fun f => (e, f)) else []

theorem mem_ofEntry {env : Env} {checked : List Nat} {e : Entry} {p : Entry × File} (h : p ∈ ofEntry env checked e) :
    p.1 = e ∧ permitted env e ∧ p.2 ∈ e.files ∧ p.2.id ∉ checked ∧ free env p.2 := by
  unfold ofEntry at h
  split at h
  · rename_i hp
    obtain ⟨f, hf, rfl⟩ := List.mem_map.1 h
    obtain ⟨h1, h2⟩ := List.mem_filter.1 hf
    obtain ⟨h3, h4⟩ := open_iff.1 h2
    exact ⟨rfl, hp, h1, h3, h4⟩
  · cases h

theorem ofEntry_mem {env : Env} {checked : List Nat} {e : Entry} {f : File} (h1 : permitted env e) (h2 : f ∈ e.files)
    (h3 : f.id ∉ checked) (h4 : free env f) : (e, f) ∈ ofEntry env checked e := by
  unfold ofEntry
  rw [if_pos h1]
  exact List.mem_map.2 ⟨f, List.mem_filter.2 ⟨h2, open_iff.2 ⟨h3, h4⟩⟩, rfl⟩

theorem entryStep_none (env : Env) (checked : List Nat) (e : Entry) :
    entryStep env checked none e = (ofEntry env checked e).foldl keep none := by
  unfold entryStep ofEntry
  dsimp only
  rw [Bool.true_and]
  by_cases hp : permitted env e
  · rw [if_pos (permit_iff.2 hp), if_pos hp, files_fold]
  · rw [if_neg (fun h => hp (permit_iff.1 h)), if_neg hp]
    rfl

/-- No file may be taken: nothing is chosen. -/
theorem keep_mem {l : List (Entry × File)} {p : Option (Entry × File)} {r : Entry × File} (h : l.foldl keep p = some r) : p = some r ∨ r ∈ l := by
  induction l generalizing p with
  | nil => exact Or.inl h
  | cons x l ih =>
    rw [List.foldl_cons] at h
    rcases ih h with h | h
    · unfold keep at h
      cases p with
      | none =>
        injection h with h
        exact Or.inr (h ▸ List.mem_cons_self)
      | some y =>
        dsimp only at h
        split at h
        · injection h with h
          exact Or.inr (h ▸ List.mem_cons_self)
        · exact Or.inl h
    · exact Or.inr (List.mem_cons_of_mem _ h)

theorem entryStep_mem {env : Env} {checked : List Nat} {e : Entry} {p : Option (Entry × File)} {r : Entry × File}
    (h : entryStep env checked p e = some r) : p = some r ∨ r ∈ ofEntry env checked e := by
  unfold entryStep at h
  by_cases hp : permitted env e
  · cases p <;> dsimp only at h <;>
      (split at h
       · rw [files_fold] at h
         unfold ofEntry
         rw [if_pos hp]
         exact keep_mem h
       · exact Or.inl h)
  · have : (!entryPaused e && (!(env.paused || env.quota) || forced e)) = false := by
      simpa using (fun h => hp (permit_iff.1 h) : ¬ _)
    rw [Bool.and_assoc, this, Bool.and_false] at h
    exact Or.inl h

theorem pick_mem {env : Env} {checked : List Nat} {q : List Entry} {r : Entry × File} (h : pickFile env checked q = some r) :
    ∃ e ∈ q, r ∈ ofEntry env checked e := by
  unfold pickFile at h
  have key : ∀ (l : List Entry) (p : Option (Entry × File)), l.foldl (entryStep env checked) p = some r → p = some r ∨
      ∃ e ∈ l, r ∈ ofEntry env checked e := by
    intro l
    induction l with
    | nil => intro p h; exact Or.inl h
    | cons e l ih =>
      intro p h
      rcases ih _ h with h | ⟨e', he, hr⟩
      · rcases entryStep_mem h with h | h
        · exact Or.inl h
        · exact Or.inr ⟨e, List.mem_cons_self, h⟩
      · exact Or.inr ⟨e', List.mem_cons_of_mem _ he, hr⟩
  rcases key q none h with h | h
  · cases h
  · exact h

theorem step_stays {env : Env} {checked : List Nat} {e : Entry} {p : Entry × File} : ∃ r, entryStep env checked (some p) e = some r := by
  unfold entryStep
  dsimp only
  split
  · rw [files_fold]
    exact keep_some
  · exact ⟨p, rfl⟩

theorem pick_none {env : Env} {checked : List Nat} {q : List Entry} :
    pickFile env checked q = none ↔ ∀ e ∈ q, ofEntry env checked e = [] := by
  have stays : ∀ (l : List Entry) (p : Entry × File), ∃ r, l.foldl (entryStep env checked) (some p) = some r := by
    intro l
    induction l with
    | nil => intro p; exact ⟨p, rfl⟩
    | cons e l ih =>
      intro p
      obtain ⟨r, hr⟩ := step_stays (env := env) (checked := checked) (e := e) (p := p)
      rw [List.foldl_cons, hr]
      exact ih r
  unfold pickFile
  induction q with
  | nil => simp
  | cons e q ih =>
    rw [List.foldl_cons, entryStep_none]
    cases ho : ofEntry env checked e with
    | nil =>
      rw [List.foldl_nil]
      exact ih.trans (by simp [ho])
    | cons x l =>
      obtain ⟨r, hr⟩ := keep_some (l := l) (p := x)
      rw [List.foldl_cons, show keep none x = some x from rfl, hr]
      obtain ⟨r', hr'⟩ := stays q r
      rw [hr']
      constructor
      · intro h; cases h
      · intro h
        have := h e List.mem_cons_self
        rw [ho] at this
        cases this

/-! ### C25 -/

theorem firstArticle_some {env : Env} {f : File} {i : Nat} (h : firstArticle env f = some i) :
    (articles env f)[i]? = some true ∧ ∀ j < i, (articles env f)[j]? = some false := by
  unfold firstArticle at h
  rw [List.findIdx?_eq_some_iff_getElem] at h
  obtain ⟨hi, h1, h2⟩ := h
  constructor
  · rw [List.getElem?_eq_getElem hi]
    simpa using h1
  · intro j hj
    have := h2 j hj
    rw [List.getElem?_eq_getElem (by omega)]
    simpa using this

theorem firstArticle_none {env : Env} {f : File} : firstArticle env f = none ↔ ¬ left env f := by
  unfold firstArticle left
  rw [List.findIdx?_eq_none_iff]
  constructor
  · intro h hm
    have := h true hm
    cases this
  · intro h x hx
    cases x
    · rfl
    · exact absurd hx h

/-- The files which may be taken in a turn. -/
def unchecked (env : Env) (checked : List Nat) (q : List Entry) : List (Entry × File) := q.flatMap (ofEntry env checked)

/-- The loop ends. -/
theorem loop_terminates (env : Env) (q : List Entry) : ∀ (fuel : Nat) (checked : List Nat),
    (((q.flatMap Entry.files).map File.id).filter (fun i => !checked.contains i)).length < fuel → nextLoop env q fuel checked ≠ none := by
  intro fuel
  induction fuel with
  | zero => intro _ h; omega
  | succ fuel ih =>
    intro checked h
    unfold nextLoop
    cases hp : pickFile env checked q with
    | none => simp
    | some p =>
      obtain ⟨e, f⟩ := p
      dsimp only
      split
      · simp
      · split
        · simp
        · apply ih
          obtain ⟨e', he, hm⟩ := pick_mem hp
          obtain ⟨h1, h2, h3, h4, h5⟩ := mem_ofEntry hm
          dsimp only at h1 h3 h4
          subst h1
          refine Nat.lt_of_lt_of_le ?_ (Nat.le_of_lt_succ h)
          have hsub : (((q.flatMap Entry.files).map File.id).filter (fun i => !(f.id :: checked).contains i)) =
              (((q.flatMap Entry.files).map File.id).filter (fun i => !checked.contains i)).filter (fun i => i != f.id) := by
            rw [List.filter_filter]
            apply List.filter_congr
            intro i _
            by_cases h1 : i = f.id <;> simp [h1]
          rw [hsub]
          apply List.length_filter_lt_length_iff_exists.2
          refine ⟨f.id, ?_, by simp⟩
          rw [List.mem_filter]
          exact ⟨List.mem_map_of_mem (List.mem_flatMap.2 ⟨e, he, h3⟩), by simpa using h4⟩

theorem next_terminates (env : Env) (q : List Entry) : nextArticle env q ≠ none := by
  unfold nextArticle
  apply loop_terminates
  refine Nat.lt_succ_of_le ?_
  refine Nat.le_trans (List.length_filter_le _ _) ?_
  simp

/-- **C25.** When the program does not rename directly, the article given is the first one left of a file which may be downloaded: the file is
not paused, not deleted, old enough, and its entry is permitted (forced, if downloads are paused or the quota is reached). -/
theorem next_is_ready {env : Env} {q : List Entry} {e : Entry} {f : File} {i : Nat} (hd : env.directRename = false)
    (h : nextArticle env q = some (some (e, f, i))) :
    e ∈ q ∧ f ∈ e.files ∧ ready env (e, f) ∧ (articles env f)[i]? = some true ∧ ∀ j < i, (articles env f)[j]? = some false := by
  unfold nextArticle at h
  revert h
  generalize (q.flatMap Entry.files).length + 1 = fuel
  generalize ([] : List Nat) = checked
  intro h
  induction fuel generalizing checked with
  | zero => cases h
  | succ fuel ih =>
    unfold nextLoop at h
    cases hp : pickFile env checked q with
    | none => rw [hp] at h; cases h
    | some p =>
      obtain ⟨e', f'⟩ := p
      rw [hp, hd] at h
      dsimp only at h
      simp only [Bool.false_and, Bool.false_eq_true, if_false] at h
      cases hf : firstArticle env f' with
      | none =>
        rw [hf] at h
        exact ih _ h
      | some j =>
        rw [hf] at h
        simp only [Option.some.injEq, Prod.mk.injEq] at h
        obtain ⟨rfl, rfl, rfl⟩ := h
        obtain ⟨e'', he, hm⟩ := pick_mem hp
        obtain ⟨h1, h2, h3, h4, h5⟩ := mem_ofEntry hm
        dsimp only at h1 h3 h5
        subst h1
        refine ⟨he, h3, ⟨h2, h5, ?_⟩, firstArticle_some hf⟩
        apply Decidable.byContradiction
        intro hl
        rw [firstArticle_none.2 hl] at hf
        cases hf

/-- Ids of files are unique in the queue. -/
def UniqueIds (q : List Entry) : Prop := ((q.flatMap Entry.files).map File.id).Nodup

theorem unique_file {q : List Entry} (h : UniqueIds q) {e e' : Entry} {f f' : File} (he : e ∈ q) (hf : f ∈ e.files) (he' : e' ∈ q)
    (hf' : f' ∈ e'.files) (hid : f.id = f'.id) : f = f' := by
  have h1 : f ∈ q.flatMap Entry.files := List.mem_flatMap.2 ⟨e, he, hf⟩
  have h2 : f' ∈ q.flatMap Entry.files := List.mem_flatMap.2 ⟨e', he', hf'⟩
  unfold UniqueIds at h
  revert h h1 h2
  generalize q.flatMap Entry.files = l
  intro h h1 h2
  induction l with
  | nil => cases h1
  | cons x l ih =>
    rw [List.map_cons, List.nodup_cons] at h
    rcases List.mem_cons.1 h1 with h3 | h3 <;> rcases List.mem_cons.1 h2 with h4 | h4
    · rw [h3, h4]
    · subst h3
      exact absurd (hid ▸ List.mem_map_of_mem h4) h.1
    · subst h4
      exact absurd (hid ▸ List.mem_map_of_mem h3) h.1
    · exact ih h.2 h3 h4

/-- What the loop gives: the file chosen in a turn in which only files without an article left had been passed over. -/
theorem loop_result {env : Env} {q : List Entry} (hu : UniqueIds q) (hd : env.directRename = false) : ∀ (fuel : Nat) (checked : List Nat),
    (∀ e ∈ q, ∀ f ∈ e.files, f.id ∈ checked → ¬ left env f) → ∀ r, nextLoop env q fuel checked = some r →
    match r with
    | none => ∃ checked', (∀ e ∈ q, ∀ f ∈ e.files, f.id ∈ checked' → ¬ left env f) ∧ pickFile env checked' q = none
    | some (e, f, _) => left env f ∧ ∃ checked', (∀ e ∈ q, ∀ f ∈ e.files, f.id ∈ checked' → ¬ left env f) ∧ pickFile env checked' q = some (e, f) := by
  intro fuel
  induction fuel with
  | zero => intro _ _ r h; cases h
  | succ fuel ih =>
    intro checked hc r h
    unfold nextLoop at h
    cases hp : pickFile env checked q with
    | none =>
      rw [hp] at h
      injection h with h
      subst h
      exact ⟨checked, hc, hp⟩
    | some p =>
      obtain ⟨e, f⟩ := p
      rw [hp, hd] at h
      dsimp only at h
      simp only [Bool.false_and, Bool.false_eq_true, if_false] at h
      cases hf : firstArticle env f with
      | some i =>
        rw [hf] at h
        injection h with h
        subst h
        refine ⟨?_, checked, hc, hp⟩
        apply Decidable.byContradiction
        intro hl
        rw [firstArticle_none.2 hl] at hf
        cases hf
      | none =>
        rw [hf] at h
        apply ih (f.id :: checked) _ r h
        intro e' he' f' hf' hin
        rcases List.mem_cons.1 hin with heq | hin
        · obtain ⟨e'', he, hm⟩ := pick_mem hp
          obtain ⟨h1, h2, h3, h4, h5⟩ := mem_ofEntry hm
          dsimp only at h1 h3
          subst h1
          have := unique_file hu he' hf' he h3 heq
          subst this
          exact firstArticle_none.1 hf
        · exact hc e' he' f' hf' hin

/-- **C25.** If a file may be downloaded, an article is given; if there is none, none is given. -/
theorem next_exists {env : Env} {q : List Entry} (hu : UniqueIds q) (hd : env.directRename = false) :
    nextArticle env q = some none ↔ ∀ e ∈ q, ∀ f ∈ e.files, ¬ ready env (e, f) := by
  constructor
  · intro h
    have := loop_result hu hd _ [] (by simp) none h
    obtain ⟨checked, hc, hp⟩ := this
    rw [pick_none] at hp
    rintro e he f hf ⟨h1, h2, h3⟩
    have hin := ofEntry_mem h1 hf (fun hin => hc e he f hf hin h3) h2
    rw [hp e he] at hin
    cases hin
  · intro h
    cases hn : nextArticle env q with
    | none => exact absurd hn (next_terminates env q)
    | some r =>
      cases r with
      | none => rfl
      | some r =>
        obtain ⟨e, f, i⟩ := r
        obtain ⟨h1, h2, h3, _⟩ := next_is_ready hd hn
        exact absurd h3 (h e h1 f h2)

/-! ### Priorities -/

/-- The number of files with extra priority of an entry is right (as far as it matters): if a file has it, the number is not 0; if it is not
0 and files of the entry may be downloaded, one with extra priority has an article left. -/
def ExtraShown (env : Env) (q : List Entry) : Prop :=
  ∀ e ∈ q, (∀ f ∈ e.files, f.extra = true → hasExtra e = true) ∧
    (permitted env e → hasExtra e = true → (∃ f ∈ e.files, free env f) → ∃ f ∈ e.files, f.extra = true ∧ free env f ∧ left env f)

theorem entryStep_best {env : Env} {checked : List Nat} {q : List Entry} (hx : ExtraShown env q)
    (hc : ∀ e ∈ q, ∀ f ∈ e.files, f.id ∈ checked → ¬ left env f) {e : Entry} (he : e ∈ q) {p : Option (Entry × File)}
    (hp : ∀ y, p = some y → y.2.extra = hasExtra y.1) :
    entryStep env checked p e = (ofEntry env checked e).foldl keep p ∧
    ∀ y, entryStep env checked p e = some y → y.2.extra = hasExtra y.1 := by
  have hfirst : entryStep env checked p e = (ofEntry env checked e).foldl keep p := by
    cases p with
    | none => exact entryStep_none env checked e
    | some y =>
      unfold entryStep
      dsimp only
      by_cases hper : permitted env e
      · rw [Bool.and_assoc, permit_iff.2 hper, Bool.and_true]
        unfold ofEntry
        rw [if_pos hper]
        by_cases hh : entryHigher e y.1 = true
        · rw [if_pos hh, files_fold]
        · rw [if_neg hh]
          have hy := hp y rfl
          have : ∀ x ∈ (e.files.filter (open' env checked)).map (fun f => (e, f)), ¬ precedes x y := by
            intro x hxm hpre
            obtain ⟨f, hf, rfl⟩ := List.mem_map.1 hxm
            obtain ⟨hf1, hf2⟩ := List.mem_filter.1 hf
            have h1 := (hx e he).1 f hf1
            apply hh
            unfold entryHigher
            unfold precedes at hpre
            dsimp only at hpre
            rw [← hy]
            cases hfe : f.extra
            · rw [hfe] at hpre
              have hye : y.2.extra = false := by
                rcases hpre with h | h
                · cases h.1
                · exact h.1.symm
              have hpr : e.priority > y.1.priority := by
                rcases hpre with h | h
                · cases h.1
                · exact h.2
              rw [hye]
              cases hasExtra e <;> simp [hpr]
            · rw [h1 hfe]
              rw [hfe] at hpre
              rcases hpre with h | h
              · rw [h.2]; rfl
              · rw [← h.1]
                simp [h.2]
          have key : ∀ l : List (Entry × File), (∀ x ∈ l, ¬ precedes x y) → l.foldl keep (some y) = some y := by
            intro l
            induction l with
            | nil => intro _; rfl
            | cons x l ih =>
              intro h
              rw [List.foldl_cons, show keep (some y) x = some y from by
                unfold keep; dsimp only; rw [if_neg (h x List.mem_cons_self)]]
              exact ih (fun z hz => h z (List.mem_cons_of_mem _ hz))
          exact (key _ this).symm
      · have : (!entryPaused e && (!(env.paused || env.quota) || forced e)) = false := by
          simpa using (fun h => hper (permit_iff.1 h) : ¬ _)
        rw [Bool.and_assoc, this, Bool.and_false]
        unfold ofEntry
        rw [if_neg hper]
        rfl
  refine ⟨hfirst, ?_⟩
  intro y hy
  rw [hfirst] at hy
  rcases keep_mem hy with h | h
  · exact hp y h
  · have hb : FirstBest (ofEntry env checked e) y ∨ ∃ z, p = some z ∧ FirstBest (z :: ofEntry env checked e) y := by
      cases p with
      | none => exact Or.inl (best_of hy)
      | some z => exact Or.inr ⟨z, rfl, best_cons hy⟩
    obtain ⟨m1, m2, m3, m4, m5⟩ := mem_ofEntry h
    rw [m1]
    cases hhe : hasExtra e
    · cases hye : y.2.extra
      · rfl
      · have := (hx e he).1 y.2 m3 hye
        rw [hhe] at this
        cases this
    · obtain ⟨f, hf1, hf2, hf3, hf4⟩ := (hx e he).2 m2 hhe ⟨y.2, m3, m5⟩
      have hin := ofEntry_mem m2 hf1 (fun hin => hc e he f hf1 hin hf4) hf3
      have hnot : ¬ precedes (e, f) y ∨ precedes y (e, f) ∨ (e, f) = y := by
        have gen : ∀ l : List (Entry × File), FirstBest l y → (e, f) ∈ l → ¬ precedes (e, f) y ∨ precedes y (e, f) ∨ (e, f) = y := by
          rintro l ⟨pre, post, hl, h1, h2⟩ hm
          rw [hl] at hm
          rcases List.mem_append.1 hm with hm | hm
          · exact Or.inr (Or.inl (h1 _ hm))
          · rcases List.mem_cons.1 hm with hm | hm
            · exact Or.inr (Or.inr hm)
            · exact Or.inl (h2 _ hm)
        rcases hb with hb | ⟨z, _, hb⟩
        · exact gen _ hb hin
        · exact gen _ hb (List.mem_cons_of_mem _ hin)
      cases hye : y.2.extra
      · exfalso
        rcases hnot with h | h | h
        · exact h (Or.inl ⟨hf2, hye⟩)
        · rcases h with h | h
          · rw [hye] at h; cases h.1
          · rw [hye] at h
            have := h.1
            dsimp only at this
            rw [hf2] at this
            cases this
        · rw [← h] at hye
          dsimp only at hye
          rw [hf2] at hye
          cases hye
      · rfl

theorem pick_best {env : Env} {checked : List Nat} {q : List Entry} (hx : ExtraShown env q)
    (hc : ∀ e ∈ q, ∀ f ∈ e.files, f.id ∈ checked → ¬ left env f) :
    pickFile env checked q = (unchecked env checked q).foldl keep none := by
  have key : ∀ (l : List Entry) (p : Option (Entry × File)), (∀ e ∈ l, e ∈ q) → (∀ y, p = some y → y.2.extra = hasExtra y.1) →
      l.foldl (entryStep env checked) p = (l.flatMap (ofEntry env checked)).foldl keep p := by
    intro l
    induction l with
    | nil => intro p _ _; rfl
    | cons e l ih =>
      intro p hl hp
      obtain ⟨h1, h2⟩ := entryStep_best hx hc (hl e List.mem_cons_self) hp
      rw [List.foldl_cons, List.flatMap_cons, List.foldl_append, ← h1]
      exact ih _ (fun x hx => hl x (List.mem_cons_of_mem _ hx)) h2
  exact key q none (fun _ h => h) (by intro y h; cases h)

theorem unchecked_ready {env : Env} {checked : List Nat} {q : List Entry} (hc : ∀ e ∈ q, ∀ f ∈ e.files, f.id ∈ checked → ¬ left env f) :
    (unchecked env checked q).filter (fun p => decide (ready env p)) = (all q).filter (fun p => decide (ready env p)) := by
  unfold unchecked all
  have key : ∀ l : List Entry, (∀ e ∈ l, e ∈ q) → (l.flatMap (ofEntry env checked)).filter (fun p => decide (ready env p)) =
      (l.flatMap (fun e => e.files.map (fun f => (e, f)))).filter (fun p => decide (ready env p)) := by
    intro l
    induction l with
    | nil => intro _; rfl
    | cons e l ih =>
      intro hl
      rw [List.flatMap_cons, List.flatMap_cons, List.filter_append, List.filter_append, ih (fun x hx => hl x (List.mem_cons_of_mem _ hx))]
      congr 1
      unfold ofEntry
      by_cases hp : permitted env e
      · rw [if_pos hp, List.filter_map, List.filter_map, List.filter_filter]
        congr 1
        apply List.filter_congr
        intro f hf
        simp only [Function.comp]
        by_cases hr : ready env (e, f)
        · have : open' env checked f = true := open_iff.2 ⟨fun hin => hc e (hl e List.mem_cons_self) f hf hin hr.2.2, hr.2.1⟩
          simp [hr, this]
        · simp [hr]
      · rw [if_neg hp]
        symm
        rw [List.filter_nil, List.filter_eq_nil_iff]
        intro x hx
        obtain ⟨f, _, rfl⟩ := List.mem_map.1 hx
        simp [ready, hp]
  exact key q (fun _ h => h)

/-- **C25, partial.** If the numbers of extra priority files are right and the entries with extra priority files have one which can be
downloaded, the file is the first in the order of the queue of those with the highest priority: files with extra priority precede
the others, then the priority of the entries counts. -/
theorem next_is_best_partial {env : Env} {q : List Entry} {e : Entry} {f : File} {i : Nat} (hu : UniqueIds q) (hd : env.directRename = false)
    (hx : ExtraShown env q) (h : nextArticle env q = some (some (e, f, i))) :
    FirstBest ((all q).filter (fun p => decide (ready env p))) (e, f) := by
  obtain ⟨hl, checked, hc, hp⟩ := loop_result hu hd _ [] (by simp) _ h
  have hr := (next_is_ready hd h).2.2.1
  rw [pick_best hx hc] at hp
  have hb := best_filter (fun p => decide (ready env p)) (best_of hp) (by simpa using hr)
  rw [unchecked_ready hc] at hb
  exact hb

def file (id : Nat) (extra : Bool) (arts : List Bool) : File :=
  { id := id, time := 0, paused := false, deleted := false, extra := extra, confirmed := true, arts := arts, stored := [] }

def entry (id : Nat) (priority extra : Int) (files : List File) : Entry :=
  { id := id, priority := priority, extra := extra, pausedCount := 0, toRename := false, allFirst := true, files := files }

def env0 : Env := { paused := false, quota := false, delay := 0, now := 100, serverMode := true, directRename := false }

/-- Three entries; the second has a file with extra priority. -/
def queue0 : List Entry :=
  [entry 1 50 0 [file 10 false [false, false], file 11 false [false, true]], entry 2 0 1 [file 20 false [true], file 21 true [true]],
   entry 3 100 0 [file 30 false [true]]]

example : UniqueIds queue0 ∧ ExtraShown env0 queue0 ∧
    nextArticle env0 queue0 = some (some (entry 2 0 1 [file 20 false [true], file 21 true [true]], file 21 true [true], 0)) := by
  refine ⟨by unfold UniqueIds; decide +kernel, ?_, by decide +kernel⟩
  intro e he
  have : ∀ e ∈ queue0, (∀ f ∈ e.files, f.extra = true → hasExtra e = true) ∧
      (hasExtra e = true → ∃ f ∈ e.files, f.extra = true ∧ free env0 f ∧ left env0 f) := by decide +kernel
  exact ⟨(this e he).1, fun _ h _ => (this e he).2 h⟩

/-- **C25, violation.** All articles of the file with extra priority of the first entry are being downloaded. Then a file without extra priority
of this entry is chosen, although the other entry has a higher priority; with the entries in the other order it is not. -/
theorem extra_priority_hides_priority :
    let a := entry 1 0 1 [file 10 true [false, false], file 11 false [true]]
    let b := entry 2 100 0 [file 20 false [true]]
    nextArticle env0 [a, b] = some (some (a, file 11 false [true], 0)) ∧ ready env0 (b, file 20 false [true]) ∧
    precedes (b, file 20 false [true]) (a, file 11 false [true]) ∧
    nextArticle env0 [b, a] = some (some (b, file 20 false [true], 0)) := by
  decide +kernel

/-- **C25, violation.** If the number of paused files of an entry says that all are paused, no file of the entry is given, paused or not.
(`Verif.Counters.split_stops_download` shows that a split makes such an entry.) -/
theorem wrong_count_blocks {env : Env} {q : List Entry} {e : Entry} {f : File} {i : Nat} (hd : env.directRename = false)
    (hc : e.pausedCount = e.files.length) : nextArticle env q ≠ some (some (e, f, i)) := by
  intro h
  have := (next_is_ready hd h).2.2.1.1.1
  unfold entryPaused at this
  rw [hc] at this
  simp at this

example : (entry 1 0 0 [file 10 false [true]]).pausedCount ≠ 1 ∧
    ({ entry 1 0 0 [file 10 false [true]] with pausedCount := 1 } : Entry).pausedCount = 1 := by decide

theorem nextFirst_some {env : Env} {l : List File} {f : File} {i : Nat} (h : nextFirst env l = some (f, i)) :
    f ∈ l ∧ i = 0 ∧ f.confirmed = false ∧ (articles env f).head? = some true := by
  induction l with
  | nil => cases h
  | cons x l ih =>
    unfold nextFirst at h
    by_cases hx : (!x.confirmed && (articles env x).head? == some true) = true
    · rw [if_pos hx] at h
      simp only [Option.some.injEq, Prod.mk.injEq] at h
      obtain ⟨rfl, rfl⟩ := h
      simp only [Bool.and_eq_true, Bool.not_eq_true', beq_iff_eq] at hx
      exact ⟨List.mem_cons_self, rfl, hx.1, hx.2⟩
    · rw [if_neg hx] at h
      obtain ⟨h1, h2⟩ := ih h
      exact ⟨List.mem_cons_of_mem _ h1, h2⟩

/-- With direct rename too, only entries which are permitted are downloaded: while downloads are paused or the quota is reached, forced ones.
The article is the first one left of a file which may be downloaded, or the first article of a file whose name is not yet known in an entry
which has a file which may be downloaded. -/
theorem next_is_permitted {env : Env} {q : List Entry} {e : Entry} {f : File} {i : Nat}
    (h : nextArticle env q = some (some (e, f, i))) :
    e ∈ q ∧ f ∈ e.files ∧ permitted env e ∧ (articles env f)[i]? = some true ∧
    (ready env (e, f) ∨ env.directRename = true ∧ i = 0 ∧ f.confirmed = false ∧ ∃ g ∈ e.files, free env g) := by
  unfold nextArticle at h
  revert h
  generalize (q.flatMap Entry.files).length + 1 = fuel
  generalize ([] : List Nat) = checked
  intro h
  induction fuel generalizing checked with
  | zero => cases h
  | succ fuel ih =>
    unfold nextLoop at h
    cases hp : pickFile env checked q with
    | none => rw [hp] at h; cases h
    | some p =>
      obtain ⟨e', f'⟩ := p
      obtain ⟨e'', he, hm⟩ := pick_mem hp
      obtain ⟨h1, h2, h3, h4, h5⟩ := mem_ofEntry hm
      dsimp only at h1 h3 h5
      subst h1
      rw [hp] at h
      dsimp only at h
      cases hn : (if (env.directRename && e'.toRename && !e'.allFirst) = true then nextFirst env e'.files else none) with
      | some r =>
        rw [hn] at h
        obtain ⟨g, j⟩ := r
        simp only [Option.some.injEq, Prod.mk.injEq] at h
        obtain ⟨rfl, rfl, rfl⟩ := h
        split at hn
        · rename_i hc
          simp only [Bool.and_eq_true] at hc
          obtain ⟨k1, k2, k3, k4⟩ := nextFirst_some hn
          subst k2
          refine ⟨he, k1, h2, ?_, Or.inr ⟨hc.1.1, rfl, k3, f', h3, h5⟩⟩
          rw [← List.head?_eq_getElem?]
          exact k4
        · cases hn
      | none =>
        rw [hn] at h
        dsimp only at h
        cases hf : firstArticle env f' with
        | none =>
          rw [hf] at h
          exact ih _ h
        | some j =>
          rw [hf] at h
          simp only [Option.some.injEq, Prod.mk.injEq] at h
          obtain ⟨rfl, rfl, rfl⟩ := h
          refine ⟨he, h3, h2, (firstArticle_some hf).1, Or.inl ⟨h2, h5, ?_⟩⟩
          apply Decidable.byContradiction
          intro hl
          rw [firstArticle_none.2 hl] at hf
          cases hf

/-- With direct rename, an article of a paused or deleted file, or of one which is not old enough, is given when its name is not yet known. -/
theorem rename_takes_paused_file :
    let f : File := { file 10 false [true] with paused := true, confirmed := false }
    let e : Entry := { entry 1 0 0 [f, file 11 false [true]] with pausedCount := 1, toRename := true, allFirst := false }
    nextArticle { env0 with directRename := true } [e] = some (some (e, f, 0)) := by
  decide +kernel

/-- Downloads are paused: only forced entries are downloaded. -/
theorem paused_only_forced {env : Env} {q : List Entry} {e : Entry} {f : File} {i : Nat} (hp : env.paused = true ∨ env.quota = true)
    (h : nextArticle env q = some (some (e, f, i))) : e.priority ≥ 900 := by
  have := (next_is_permitted h).2.2.1.2
  rcases hp with hp | hp
  · rcases this with h | h
    · rw [hp] at h; cases h.1
    · exact h
  · rcases this with h | h
    · rw [hp] at h; cases h.2
    · exact h

example : nextArticle { env0 with paused := true } [entry 1 50 0 [file 10 false [true]], entry 2 900 0 [file 20 false [true]]] =
    some (some (entry 2 900 0 [file 20 false [true]], file 20 false [true], 0)) := by decide +kernel

end Verif.NextArticle
