import Verif.CacheFlush
/-
The article cache is written to disk (C147).
-/
namespace Verif.CacheFlush

/-! ### Specification -/

/-- All articles in the cache. -/
def held (fs : List File) : List Art := fs.flatMap File.cached

/-- A file of a consistent queue: the number of cached articles is right, and none of them is empty. -/
def Fine (f : File) : Prop := f.counter = f.cached.length ∧ f.deleted = false ∧ ∀ a ∈ f.cached, 0 < a.size

/-- The article which is completed by an event. -/
def came (s : State) : Event → List Art
  | .finish i => match s.files[i]? with
    | some f => f.loading.take 1
    | none => []
  | _ => []

/-- A history: the state behind it, and the articles which were completed. -/
def story (c : Cfg) (io : Art → Io) : State → List Event → State × List Art
  | s, [] => (s, [])
  | s, e :: es => ((story c io (step c io s e) es).1, came s e ++ (story c io (step c io s e) es).2)

/-- No event brings an empty article. -/
def Full : Event → Prop
  | .start _ a => 0 < a.size
  | _ => True

/-! ### A flush -/

theorem flushArts_ok (io : Art → Io) (h : ∀ a, io a = .ok) : ∀ l, flushArts io l = ⟨[], l, [], l.length⟩
  | [] => rfl
  | a :: l => by unfold flushArts; rw [h a]; dsimp only; rw [flushArts_ok io h l]; rfl

theorem flushFile_ok (io : Art → Io) (h : ∀ a, io a = .ok) (f : File) (hf : Fine f) : flushFile io f = ({ f with cached := [], counter := 0 }, ⟨[], f.cached, [], f.cached.length⟩) := by
  unfold flushFile
  rw [if_neg (by rw [hf.2.1]; exact Bool.false_ne_true), flushArts_ok io h]
  dsimp only
  rw [hf.1, Nat.sub_self]

def filled (fs : List File) : Nat := (fs.filter (fun f => !f.cached.isEmpty)).length

def shape (f : File) : List Art × Nat := (f.loading, f.others)

theorem held_cons (f : File) (fs : List File) : held (f :: fs) = f.cached ++ held fs := rfl

theorem filled_cons (f : File) (fs : List File) : filled (f :: fs) = (if f.cached = [] then 0 else 1) + filled fs := by
  unfold filled
  rw [List.filter_cons]
  cases h : f.cached with
  | nil => simp
  | cons a l => simp; omega

/-- What CheckFlush does if the disk works. -/
structure Did (fs fs' : List File) (r : Flushed) : Prop where
  lost : r.lost = []
  perm : (r.disk ++ held fs').Perm (held fs)
  count : filled fs' + 1 = filled fs
  fine : ∀ f ∈ fs', Fine f
  shape : fs'.map shape = fs.map shape

theorem checkFlush_did (io : Art → Io) (h : ∀ a, io a = .ok) (all : Bool) : ∀ (fs : List File), (∀ f ∈ fs, Fine f) →
    (checkFlush io all fs = none ∧ ∀ f ∈ fs, f.cached ≠ [] → f.idle = false ∧ all = false) ∨ (∃ fs' r, checkFlush io all fs = some (fs', r) ∧ Did fs fs' r)
  | [], _ => .inl ⟨rfl, fun _ h => nomatch h⟩
  | f :: fs, hf => by
    have h0 := hf f List.mem_cons_self
    have hs : ∀ g ∈ fs, Fine g := fun g hg => hf g (List.mem_cons_of_mem _ hg)
    unfold checkFlush
    by_cases hc : (0 < f.counter && (f.idle || all)) = true
    · right
      rw [if_pos hc, flushFile_ok io h f h0]
      refine ⟨_, _, rfl, ⟨rfl, ?_, ?_, ?_, rfl⟩⟩
      · exact List.Perm.refl _
      · have hne : f.cached ≠ [] := by
          intro e
          rw [h0.1, e] at hc
          simp at hc
        rw [filled_cons, filled_cons, if_pos rfl, if_neg hne]
        omega
      · intro g hg
        rcases List.mem_cons.1 hg with e | e
        · rw [e]; exact ⟨rfl, h0.2.1, fun _ h => nomatch h⟩
        · exact hs g e
    · rw [if_neg hc]
      rcases checkFlush_did io h all fs hs with ⟨e, i⟩ | ⟨fs', r, e, d⟩
      · left
        refine ⟨by rw [e]; rfl, ?_⟩
        intro g hg hne
        rcases List.mem_cons.1 hg with e' | e'
        · rw [e'] at hne ⊢
          have : 0 < f.counter := by rw [h0.1]; exact List.length_pos_iff.2 hne
          simp only [this, decide_true, Bool.true_and, Bool.or_eq_true, not_or, Bool.not_eq_true] at hc
          exact hc
        · exact i g e' hne
      · right
        refine ⟨f :: fs', r, by rw [e]; rfl, ⟨d.lost, ?_, ?_, ?_, ?_⟩⟩
        · rw [held_cons, held_cons]
          refine List.Perm.trans ?_ (List.Perm.append_left f.cached d.perm)
          rw [← List.append_assoc, ← List.append_assoc]
          exact List.Perm.append_right _ List.perm_append_comm
        · rw [filled_cons, filled_cons]
          have := d.count
          omega
        · intro g hg
          rcases List.mem_cons.1 hg with e' | e'
          · rw [e']; exact h0
          · exact d.fine g e'
        · rw [List.map_cons, List.map_cons, d.shape]

/-! ### Memory -/

theorem sizes_pos {l : List Art} (hl : l ≠ []) (h : ∀ a ∈ l, 0 < a.size) : 0 < sizes l := by
  cases l with
  | nil => exact absurd rfl hl
  | cons a l =>
    have := h a List.mem_cons_self
    unfold sizes
    rw [List.map_cons, List.sum_cons]
    omega

theorem allocated_cons (f : File) (fs : List File) : allocated (f :: fs) = sizes f.cached + sizes f.loading + allocated fs := by
  unfold allocated; rw [List.map_cons, List.sum_cons]

theorem allocated_pos : ∀ {fs : List File} {f : File}, f ∈ fs → 0 < sizes f.cached + sizes f.loading → 0 < allocated fs
  | g :: fs, f, hm, h => by
    rw [allocated_cons]
    rcases List.mem_cons.1 hm with e | e
    · rw [← e]; omega
    · have := allocated_pos e h; omega

theorem allocated_zero : ∀ {fs : List File}, (∀ f ∈ fs, f.cached = [] ∧ f.loading = []) → allocated fs = 0
  | [], _ => rfl
  | f :: fs, h => by
    rw [allocated_cons, (h f List.mem_cons_self).1, (h f List.mem_cons_self).2, allocated_zero (fun g hg => h g (List.mem_cons_of_mem _ hg))]
    rfl

theorem not_ended {s : State} (h : 0 < allocated s.files) : s.ended = false := by
  unfold State.ended
  have : (allocated s.files == 0) = false := by simpa using Nat.ne_of_gt h
  rw [this, Bool.and_false]

/-! ### One pass -/

/-- A pass of the loop loses nothing and writes nothing twice. -/
theorem pass_keeps (c : Cfg) (io : Art → Io) (h : ∀ a, io a = .ok) (s : State) (hf : ∀ f ∈ s.files, Fine f) :
    ((pass c io s).disk ++ held (pass c io s).files).Perm (s.disk ++ held s.files) ∧ (pass c io s).lost = s.lost ∧ (∀ f ∈ (pass c io s).files, Fine f) := by
  unfold pass
  split
  · exact ⟨List.Perm.refl _, rfl, hf⟩
  · split
    · rcases checkFlush_did io h (decide (c.threshold ≤ allocated s.files)) s.files hf with ⟨e, _⟩ | ⟨fs', r, e, d⟩
      · rw [e]; exact ⟨List.Perm.refl _, rfl, hf⟩
      · rw [e]
        dsimp only
        refine ⟨?_, by rw [d.lost, List.append_nil], d.fine⟩
        rw [List.append_assoc]
        exact List.Perm.append_left _ d.perm
    · split
      · exact ⟨List.Perm.refl _, rfl, hf⟩
      · exact ⟨List.Perm.refl _, rfl, hf⟩

/-- As long as a file which is not being downloaded has cached articles, a pass which doesn't sleep writes one file. -/
theorem pass_flushes (c : Cfg) (io : Art → Io) (h : ∀ a, io a = .ok) (s : State) (hf : ∀ f ∈ s.files, Fine f) (hs : s.just = true ∨ s.stopped = true ∨ 1000 ≤ s.reset)
    (f : File) (hm : f ∈ s.files) (hi : f.idle = true) (hc : f.cached ≠ []) :
    filled (pass c io s).files + 1 = filled s.files ∧ (pass c io s).files.map shape = s.files.map shape ∧ (pass c io s).just = true ∧ (pass c io s).stopped = s.stopped := by
  have ha : 0 < allocated s.files := allocated_pos hm (by have := sizes_pos hc (hf f hm).2.2; omega)
  unfold pass
  rw [not_ended ha, if_neg Bool.false_ne_true, if_pos]
  · rcases checkFlush_did io h (decide (c.threshold ≤ allocated s.files)) s.files hf with ⟨_, e⟩ | ⟨fs', r, e, d⟩
    · exact absurd (e f hm hc).1 (by rw [hi]; exact Bool.noConfusion)
    · rw [e]
      exact ⟨d.count, d.shape, rfl, rfl⟩
  · simp only [Bool.and_eq_true, decide_eq_true_eq, Bool.or_eq_true]
    refine ⟨?_, ha⟩
    rcases hs with e | e | e
    · exact .inl (.inl (.inl e))
    · exact .inl (.inr e)
    · exact .inl (.inl (.inr e))

/-- The idle files are written one after another. -/
theorem flush_all (c : Cfg) (io : Art → Io) (h : ∀ a, io a = .ok) : ∀ (k : Nat) (s : State), filled s.files = k → (∀ f ∈ s.files, Fine f) →
    (s.just = true ∨ s.stopped = true ∨ 1000 ≤ s.reset) →
    ∃ n, n ≤ k ∧ (∀ f ∈ (passes c io n s).files, f.idle = true → f.cached = []) ∧ (passes c io n s).files.map shape = s.files.map shape ∧
      (passes c io n s).stopped = s.stopped ∧ ((passes c io n s).disk ++ held (passes c io n s).files).Perm (s.disk ++ held s.files) ∧ (passes c io n s).lost = s.lost := by
  intro k
  induction k with
  | zero =>
    intro s hk hf _
    refine ⟨0, Nat.le_refl _, ?_, rfl, rfl, List.Perm.refl _, rfl⟩
    intro f hm _
    have : ∀ fs : List File, filled fs = 0 → ∀ f ∈ fs, f.cached = [] := by
      intro fs
      induction fs with
      | nil => intro _ f hf; exact nomatch hf
      | cons g fs ih =>
        intro e f hf
        rw [filled_cons] at e
        rcases List.mem_cons.1 hf with q | q
        · rw [q]
          by_cases hg : g.cached = []
          · exact hg
          · rw [if_neg hg] at e; omega
        · exact ih (by omega) f q
    exact this _ hk f hm
  | succ k ih =>
    intro s hk hf hs
    by_cases hx : ∃ f ∈ s.files, f.idle = true ∧ f.cached ≠ []
    · obtain ⟨f, hm, hi, hc⟩ := hx
      obtain ⟨p1, p2, p3, p4⟩ := pass_flushes c io h s hf hs f hm hi hc
      obtain ⟨k1, k2, k3⟩ := pass_keeps c io h s hf
      obtain ⟨n, hn, i1, i2, i3, i4, i5⟩ := ih (pass c io s) (by omega) k3 (.inl p3)
      exact ⟨n + 1, by omega, i1, i2.trans p2, i3.trans p4, i4.trans k1, i5.trans k2⟩
    · refine ⟨0, Nat.zero_le _, ?_, rfl, rfl, List.Perm.refl _, rfl⟩
      intro f hm hi
      refine Classical.byContradiction fun hc => hx ⟨f, hm, hi, hc⟩

theorem filled_le (fs : List File) : filled fs ≤ fs.length := List.length_filter_le _ _

theorem passes_add (c : Cfg) (io : Art → Io) : ∀ (m n : Nat) (s : State), passes c io (m + n) s = passes c io n (passes c io m s)
  | 0, n, s => by rw [Nat.zero_add]; rfl
  | m + 1, n, s => by rw [Nat.add_right_comm]; exact passes_add c io m n (pass c io s)

/-! ### Theorems -/

/-- C147: when the program is stopped and no download runs any more, the loop ends, after at most one pass for each file; then every article which was in the cache has been
written, each once, and the cache is empty. -/
theorem stop_writes_everything_partial (c : Cfg) (io : Art → Io) (h : ∀ a, io a = .ok) (s : State) (hs : s.stopped = true) (hf : ∀ f ∈ s.files, Fine f)
    (hl : ∀ f ∈ s.files, f.loading = [] ∧ f.others = 0) :
    ∃ n, n ≤ s.files.length ∧ (passes c io n s).ended = true ∧ (∀ f ∈ (passes c io n s).files, f.cached = []) ∧
      (passes c io n s).disk.Perm (s.disk ++ held s.files) ∧ (passes c io n s).lost = s.lost := by
  obtain ⟨n, hn, i1, i2, i3, i4, i5⟩ := flush_all c io h _ s rfl hf (.inr (.inl hs))
  have hq : ∀ f ∈ (passes c io n s).files, f.loading = [] ∧ f.others = 0 := by
    intro f hm
    have : shape f ∈ (passes c io n s).files.map shape := List.mem_map.2 ⟨f, hm, rfl⟩
    rw [i2] at this
    obtain ⟨g, hg, e⟩ := List.mem_map.1 this
    have := hl g hg
    unfold shape at e
    rw [Prod.mk.injEq] at e
    exact ⟨by rw [← e.1]; exact this.1, by rw [← e.2]; exact this.2⟩
  have hc : ∀ f ∈ (passes c io n s).files, f.cached = [] := by
    intro f hm
    refine i1 f hm ?_
    unfold File.idle
    rw [(hq f hm).1, (hq f hm).2]
    rfl
  refine ⟨n, Nat.le_trans hn (filled_le _), ?_, hc, ?_, i5⟩
  · unfold State.ended
    rw [i3, hs, allocated_zero (fun f hm => ⟨hc f hm, (hq f hm).1⟩)]
    rfl
  · have : held (passes c io n s).files = [] := by
      unfold held
      exact List.flatMap_eq_nil_iff.2 (fun f hm => hc f hm)
    rw [this, List.append_nil] at i4
    exact i4

/-- C147: while the program runs, too, the articles of files which are not being downloaded don't stay in the cache: after at most 200 passes which sleep, five milliseconds each,
they are written one file after another. -/
theorem idle_files_written_partial (c : Cfg) (io : Art → Io) (h : ∀ a, io a = .ok) (s : State) (hf : ∀ f ∈ s.files, Fine f) :
    ∃ n, n ≤ 200 + s.files.length ∧ (∀ f ∈ (passes c io n s).files, f.loading = [] → f.others = 0 → f.cached = []) ∧
      ((passes c io n s).disk ++ held (passes c io n s).files).Perm (s.disk ++ held s.files) ∧ (passes c io n s).lost = s.lost := by
  have key : ∀ (m : Nat) (s : State), 1000 ≤ s.reset + 5 * m → (∀ f ∈ s.files, Fine f) →
      ∃ n, n ≤ m + s.files.length ∧ (∀ f ∈ (passes c io n s).files, f.idle = true → f.cached = []) ∧
        ((passes c io n s).disk ++ held (passes c io n s).files).Perm (s.disk ++ held s.files) ∧ (passes c io n s).lost = s.lost := by
    intro m
    induction m with
    | zero =>
      intro s hr hf
      obtain ⟨n, hn, i1, _, _, i4, i5⟩ := flush_all c io h _ s rfl hf (.inr (.inr (by omega)))
      exact ⟨n, by have := filled_le s.files; omega, i1, i4, i5⟩
    | succ m ih =>
      intro s hr hf
      by_cases hx : ∃ f ∈ s.files, f.idle = true ∧ f.cached ≠ []
      · obtain ⟨f, hm, hi, hc⟩ := hx
        have ha : 0 < allocated s.files := allocated_pos hm (by have := sizes_pos hc (hf f hm).2.2; omega)
        by_cases hq : ((s.just || decide (1000 ≤ s.reset) || s.stopped || (c.direct && decide (c.threshold ≤ allocated s.files))) && decide (0 < allocated s.files)) = true
        · have hd := checkFlush_did io h (decide (c.threshold ≤ allocated s.files)) s.files hf
          obtain ⟨k1, k2, k3⟩ := pass_keeps c io h s hf
          have hp : (pass c io s).just = true ∧ filled (pass c io s).files + 1 = filled s.files := by
            unfold pass
            rw [not_ended ha, if_neg Bool.false_ne_true, if_pos hq]
            rcases hd with ⟨_, e⟩ | ⟨fs', r, e, d⟩
            · exact absurd (e f hm hc).1 (by rw [hi]; exact Bool.noConfusion)
            · rw [e]; exact ⟨rfl, d.count⟩
          obtain ⟨n, hn, i1, _, _, i4, i5⟩ := flush_all c io h _ (pass c io s) rfl k3 (.inl hp.1)
          exact ⟨n + 1, by have := filled_le s.files; omega, i1, i4.trans k1, i5.trans k2⟩
        · have hp : pass c io s = { s with reset := s.reset + 5 } := by
            unfold pass
            rw [not_ended ha, if_neg Bool.false_ne_true, if_neg hq, if_neg (by omega)]
          obtain ⟨n, hn, i1, i4, i5⟩ := ih { s with reset := s.reset + 5 } (by show 1000 ≤ s.reset + 5 + 5 * m; omega) hf
          refine ⟨n + 1, ?_, ?_, ?_, ?_⟩
          · have hn' : n ≤ m + s.files.length := hn
            omega
          all_goals (show _; unfold passes; rw [hp]; assumption)
      · refine ⟨0, Nat.zero_le _, ?_, List.Perm.refl _, rfl⟩
        intro f hm hi
        exact Classical.byContradiction fun hc => hx ⟨f, hm, hi, hc⟩
  obtain ⟨n, h1, h2, h3, h4⟩ := key 200 s (by omega) hf
  refine ⟨n, h1, ?_, h3, h4⟩
  intro f hm hl ho
  refine h2 f hm ?_
  unfold File.idle
  rw [hl, ho]
  rfl

theorem modify_all {P : File → Prop} (g : File → File) (hg : ∀ f, P f → P (g f)) : ∀ (i : Nat) (fs : List File), (∀ f ∈ fs, P f) → ∀ f ∈ fs.modify i g, P f
  | _, [], _ => by simp
  | 0, f :: fs, h => by
    intro x hx
    rw [List.modify_zero_cons] at hx
    rcases List.mem_cons.1 hx with e | e
    · rw [e]; exact hg f (h f List.mem_cons_self)
    · exact h x (List.mem_cons_of_mem _ e)
  | i + 1, f :: fs, h => by
    intro x hx
    rw [List.modify_succ_cons] at hx
    rcases List.mem_cons.1 hx with e | e
    · rw [e]; exact h f List.mem_cons_self
    · exact modify_all g hg i fs (fun y hy => h y (List.mem_cons_of_mem _ hy)) x e

theorem modify_held (g : File → File) (hg : ∀ f, (g f).cached = f.cached) : ∀ (i : Nat) (fs : List File), held (fs.modify i g) = held fs
  | _, [] => by simp
  | 0, f :: fs => by rw [List.modify_zero_cons, held_cons, held_cons, hg]
  | i + 1, f :: fs => by rw [List.modify_succ_cons, held_cons, held_cons, modify_held g hg i fs]

theorem finish_held : ∀ (i : Nat) (fs : List File), (held (fs.modify i finishOne)).Perm (held fs ++ (match fs[i]? with | some f => f.loading.take 1 | none => []))
  | _, [] => by simp [held]
  | 0, f :: fs => by
    rw [List.modify_zero_cons, held_cons, held_cons, List.getElem?_cons_zero]
    dsimp only
    unfold finishOne
    cases hl : f.loading with
    | nil => simp
    | cons a l =>
      dsimp only
      rw [List.append_assoc, List.append_assoc]
      exact List.Perm.append_left _ List.perm_append_comm
  | i + 1, f :: fs => by
    rw [List.modify_succ_cons, held_cons, held_cons, List.getElem?_cons_succ, List.append_assoc]
    exact List.Perm.append_left _ (finish_held i fs)

/-- What every event keeps: files are fine, and no article which is being downloaded is empty. -/
def Ready (f : File) : Prop := Fine f ∧ ∀ a ∈ f.loading, 0 < a.size

/-- C147: whatever downloads begin, are completed or end without an article, and whenever the loop comes to a pass between them: every completed article is on disk or in the cache,
exactly once, and none is lost. -/
theorem nothing_lost_partial (c : Cfg) (io : Art → Io) (h : ∀ a, io a = .ok) : ∀ (es : List Event) (s : State), (∀ e ∈ es, Full e) → (∀ f ∈ s.files, Ready f) →
    ((story c io s es).1.disk ++ held (story c io s es).1.files).Perm (s.disk ++ held s.files ++ (story c io s es).2) ∧ (story c io s es).1.lost = s.lost := by
  intro es
  induction es with
  | nil => intro s _ _; unfold story; rw [List.append_nil]; exact ⟨List.Perm.refl _, rfl⟩
  | cons e es ih =>
    intro s he hr
    have hstep : ((step c io s e).disk ++ held (step c io s e).files).Perm (s.disk ++ held s.files ++ came s e) ∧ (step c io s e).lost = s.lost ∧
        ∀ f ∈ (step c io s e).files, Ready f := by
      cases e with
      | pass =>
        obtain ⟨k1, k2, k3⟩ := pass_keeps c io h s (fun f hm => (hr f hm).1)
        refine ⟨by rw [show came s .pass = [] from rfl, List.append_nil]; exact k1, k2, ?_⟩
        intro f hm
        refine ⟨k3 f hm, ?_⟩
        have hsh : (pass c io s).files.map shape = s.files.map shape := by
          unfold pass
          split
          · rfl
          · split
            · rcases checkFlush_did io h (decide (c.threshold ≤ allocated s.files)) s.files (fun f hm => (hr f hm).1) with ⟨e, _⟩ | ⟨fs', r, e, d⟩
              · rw [e]
              · rw [e]; exact d.shape
            · split <;> rfl
        have : shape f ∈ (pass c io s).files.map shape := List.mem_map.2 ⟨f, hm, rfl⟩
        rw [hsh] at this
        obtain ⟨g, hg, e⟩ := List.mem_map.1 this
        unfold shape at e
        rw [Prod.mk.injEq] at e
        rw [← e.1]
        exact (hr g hg).2
      | start i a =>
        refine ⟨?_, rfl, ?_⟩
        · rw [show came s (.start i a) = [] from rfl, List.append_nil]
          exact List.Perm.append_left _ (List.Perm.of_eq (modify_held (fun f => { f with loading := f.loading ++ [a] }) (fun _ => rfl) i s.files))
        · refine modify_all _ ?_ i s.files hr
          intro f hf
          refine ⟨hf.1, ?_⟩
          intro x hx
          rcases List.mem_append.1 hx with q | q
          · exact hf.2 x q
          · rw [List.mem_singleton.1 q]; exact he _ List.mem_cons_self
      | finish i =>
        refine ⟨?_, rfl, ?_⟩
        · show (s.disk ++ held (s.files.modify i finishOne)).Perm _
          rw [List.append_assoc]
          exact List.Perm.append_left _ (finish_held i s.files)
        · refine modify_all _ ?_ i s.files hr
          intro f hf
          unfold finishOne
          cases hl : f.loading with
          | nil => exact hf
          | cons a l =>
            have h2 := hf.2
            rw [hl] at h2
            refine ⟨⟨?_, hf.1.2.1, ?_⟩, fun x hx => h2 x (List.mem_cons_of_mem _ hx)⟩
            · show f.counter + 1 = (f.cached ++ [a]).length
              rw [hf.1.1, List.length_append]; rfl
            · intro x hx
              rcases List.mem_append.1 hx with q | q
              · exact hf.1.2.2 x q
              · rw [List.mem_singleton.1 q]; exact h2 a List.mem_cons_self
      | abort i =>
        refine ⟨?_, rfl, ?_⟩
        · rw [show came s (.abort i) = [] from rfl, List.append_nil]
          exact List.Perm.append_left _ (List.Perm.of_eq (modify_held abortOne (fun _ => rfl) i s.files))
        · refine modify_all _ ?_ i s.files hr
          intro f hf
          exact ⟨hf.1, fun x hx => hf.2 x (List.mem_of_mem_tail hx)⟩
      | stop => exact ⟨by rw [show came s .stop = [] from rfl, List.append_nil]; exact List.Perm.refl _, rfl, hr⟩
    obtain ⟨k1, k2, k3⟩ := hstep
    obtain ⟨i1, i2⟩ := ih (step c io s e) (fun x hx => he x (List.mem_cons_of_mem _ hx)) k3
    unfold story
    refine ⟨?_, i2.trans k2⟩
    dsimp only
    refine i1.trans ?_
    rw [← List.append_assoc (s.disk ++ held s.files)]
    exact List.Perm.append_right _ k1

theorem checkFlush_busy (io : Art → Io) : ∀ (fs fs' : List File) (r : Flushed), checkFlush io false fs = some (fs', r) → ∀ (i : Nat) (f : File), fs[i]? = some f → f.idle = false → fs'[i]? = some f
  | [], _, _, h, _, _, _, _ => nomatch h
  | g :: fs, fs', r, h, i, f, hi, hb => by
    unfold checkFlush at h
    split at h
    · rename_i hc
      simp only [Option.some.injEq, Prod.mk.injEq] at h
      rw [← h.1]
      cases i with
      | zero =>
        rw [List.getElem?_cons_zero, Option.some.injEq] at hi
        rw [hi, hb] at hc
        simp at hc
      | succ i => exact hi
    · cases hq : checkFlush io false fs with
      | none => rw [hq] at h; exact nomatch h
      | some p =>
        rw [hq] at h
        simp only [Option.map_some, Option.some.injEq, Prod.mk.injEq] at h
        rw [← h.1]
        cases i with
        | zero => exact hi
        | succ i => exact checkFlush_busy io fs p.1 p.2 hq i f hi hb

/-- C147: as long as the cache is less than 90 per cent full, files which are being downloaded are left alone. -/
theorem busy_untouched (c : Cfg) (io : Art → Io) (s : State) (ht : allocated s.files < c.megabytes * 1024 * 1024 / 100 * 90) (i : Nat) (f : File) (hi : s.files[i]? = some f) (hb : f.loading ≠ [] ∨ 0 < f.others) :
    (pass c io s).files[i]? = some f := by
  have hb : f.idle = false := by
    unfold File.idle
    have : f.loading.length + f.others ≠ 0 := by
      rcases hb with h | h
      · have := List.length_pos_iff.2 h; omega
      · omega
    simpa using this
  have ht : allocated s.files < c.threshold := ht
  unfold pass
  rw [show decide (c.threshold ≤ allocated s.files) = false from decide_eq_false (by omega)]
  split
  · exact hi
  · split
    · cases hq : checkFlush io false s.files with
      | none => exact hi
      | some p => exact checkFlush_busy io s.files p.1 p.2 hq i f hi hb
    · split <;> exact hi

/-- C147: with DirectWrite a cache which is 90 per cent full is written at once, whatever is being downloaded. -/
theorem full_written (c : Cfg) (io : Art → Io) (h : ∀ a, io a = .ok) (s : State) (hd : c.direct = true) (hf : ∀ f ∈ s.files, Fine f) (ht : c.megabytes * 1024 * 1024 / 100 * 90 ≤ allocated s.files)
    (f : File) (hm : f ∈ s.files) (hc : f.cached ≠ []) : filled (pass c io s).files + 1 = filled s.files := by
  have ht : c.threshold ≤ allocated s.files := ht
  have ha : 0 < allocated s.files := allocated_pos hm (by have := sizes_pos hc (hf f hm).2.2; omega)
  unfold pass
  rw [not_ended ha, if_neg Bool.false_ne_true, if_pos (by simp [hd, ht, ha])]
  rcases checkFlush_did io h (decide (c.threshold ≤ allocated s.files)) s.files hf with ⟨_, e⟩ | ⟨fs', r, e, d⟩
  · have := (e f hm hc).2
    rw [decide_eq_false_iff_not] at this
    exact absurd ht this
  · rw [e]; exact d.count

/-- C147: as long as memory belongs to a running download, the loop doesn't end. -/
theorem waits_for_downloads (s : State) (f : File) (hm : f ∈ s.files) (a : Art) (ha : a ∈ f.loading) (hp : 0 < a.size) : s.ended = false := by
  refine not_ended (allocated_pos hm ?_)
  have key : ∀ l : List Art, a ∈ l → 0 < sizes l := by
    intro l
    induction l with
    | nil => intro h; exact nomatch h
    | cons b l ih =>
      intro h
      unfold sizes
      rw [List.map_cons, List.sum_cons]
      rcases List.mem_cons.1 h with e | e
      · rw [← e]; omega
      · have := ih e
        unfold sizes at this
        omega
  have := key _ ha
  omega

/-- C147, refuted: if the disk is full, the articles of the cache are lost without a sign: they are taken from the cache and counted as saved. -/
theorem write_error_lost (io : Art → Io) (h : ∀ a, io a = .noWrite) (f : File) (hf : Fine f) :
    flushFile io f = ({ f with cached := [], counter := 0 }, ⟨[], [], f.cached, f.cached.length⟩) := by
  have key : ∀ l, flushArts io l = ⟨[], [], l, l.length⟩ := by
    intro l
    induction l with
    | nil => rfl
    | cons a l ih => unfold flushArts; rw [h a]; dsimp only; rw [ih]; rfl
  unfold flushFile
  rw [if_neg (by rw [hf.2.1]; exact Bool.false_ne_true), key]
  dsimp only
  rw [hf.1, Nat.sub_self]

/-- C147, refuted: each time the file can't be opened one completed article is thrown away. -/
theorem open_error_drops (io : Art → Io) (f : File) (hf : Fine f) (a : Art) (l : List Art) (hc : f.cached = a :: l) (h : io a = .noOpen) :
    flushFile io f = ({ f with cached := l, counter := l.length }, ⟨l, [], [a], 1⟩) := by
  unfold flushFile
  rw [if_neg (by rw [hf.2.1]; exact Bool.false_ne_true), hc]
  unfold flushArts
  rw [h]
  dsimp only
  rw [hf.1, hc]
  rfl

/-! ### Examples -/

def sample : State := { files := [{ cached := [⟨1, 10⟩], counter := 1, others := 1 }, { cached := [⟨2, 10⟩, ⟨3, 5⟩], counter := 2 }, { loading := [⟨4, 7⟩] }] }
def small : Cfg := ⟨100, true⟩

example : ∀ f ∈ sample.files, Ready f := by
  intro f hf
  simp only [sample, List.mem_cons, List.not_mem_nil, or_false] at hf
  rcases hf with e | e | e <;> subst e <;> exact ⟨⟨rfl, rfl, by decide⟩, by decide⟩

example : (passes small (fun _ => .ok) 201 sample).disk = [⟨2, 10⟩, ⟨3, 5⟩] := by decide +kernel
def told : State × List Art := story small (fun _ => .ok) sample [.finish 2, .stop, .pass, .pass]
example : told.1.disk = [⟨2, 10⟩, ⟨3, 5⟩, ⟨4, 7⟩] ∧ told.2 = [⟨4, 7⟩] ∧ told.1.ended = false := by decide +kernel

end Verif.CacheFlush
