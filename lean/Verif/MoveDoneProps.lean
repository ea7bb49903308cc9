import Verif.MoveDone
import Verif.FilesProps
/-! C109: a new name or category moves what was downloaded. -/
namespace Verif.MoveDone
open CStr FileName Files

/-! ### The loop -/

theorem uniqueName_new (d : Dir) (c : Bytes) (h : get d c = none) : uniqueName d c = c := by
  unfold uniqueName
  rw [unique, show numbered c 0 = c from rfl, h]
  rfl

theorem loop_moved (os : Os) (hos : ∀ c, os.moved c = .done) : ∀ (cs : List Bytes) (st : Dir × Dir), cs.Nodup →
    (∀ c ∈ cs, ∃ d, get st.1 c = some (.file d)) → (∀ c ∈ cs, get st.2 c = none) →
    ∀ m, get (cs.foldl (step os) st).1 m = (if m ∈ cs then none else get st.1 m) ∧
      get (cs.foldl (step os) st).2 m = (if m ∈ cs then get st.1 m else get st.2 m)
  | [], st, _, _, _, m => by simp
  | c :: cs, st, hn, h1, h2, m => by
    have hn' := List.nodup_cons.1 hn
    obtain ⟨d, hd⟩ := h1 c List.mem_cons_self
    have hf := h2 c List.mem_cons_self
    have hs : step os st c = (del st.1 c, put st.2 c (.file d)) := by
      unfold step
      rw [hd]
      dsimp only
      rw [uniqueName_new _ _ hf, hos]
      unfold moveFile
      dsimp only
      rw [hf]
      rfl
    rw [List.foldl_cons, hs]
    have ih := loop_moved os hos cs (del st.1 c, put st.2 c (.file d)) hn'.2
      (fun x hx => by
        have hne : c ≠ x := fun e => hn'.1 (e ▸ hx)
        show ∃ d, get (del st.1 c) x = _
        rw [get_del, if_neg hne]
        exact h1 x (List.mem_cons_of_mem _ hx))
      (fun x hx => by
        have hne : c ≠ x := fun e => hn'.1 (e ▸ hx)
        show get (put st.2 c _) x = _
        rw [get_put', if_neg hne]
        exact h2 x (List.mem_cons_of_mem _ hx)) m
    rw [ih.1, ih.2]
    dsimp only
    rw [get_del, get_put']
    by_cases hm : m = c
    · subst hm
      rw [if_neg hn'.1, if_pos rfl, if_neg hn'.1, if_pos rfl, if_pos List.mem_cons_self, if_pos List.mem_cons_self]
      exact ⟨rfl, hd.symm⟩
    · have hne : ¬ c = m := fun e => hm e.symm
      rw [if_neg hne, if_neg hne]
      by_cases hc : m ∈ cs
      · rw [if_pos hc, if_pos hc, if_pos (List.mem_cons_of_mem _ hc), if_pos (List.mem_cons_of_mem _ hc)]
        exact ⟨rfl, rfl⟩
      · have : ¬ m ∈ c :: cs := fun h => (List.mem_cons.1 h).elim hm hc
        rw [if_neg hc, if_neg hc, if_neg this, if_neg this]
        exact ⟨rfl, rfl⟩

theorem step_kept (os : Os) (st : Dir × Dir) (c : Bytes) : Kept st.2 (step os st c).2 := by
  unfold step
  cases get st.1 c with
  | none => exact Kept.refl _
  | some x => exact moveFile_kept _ _ _ _ _ _ (uniqueName_free _ _).2

theorem loop_kept (os : Os) : ∀ (cs : List Bytes) (st : Dir × Dir), Kept st.2 (cs.foldl (step os) st).2
  | [], _ => Kept.refl _
  | c :: cs, st => (step_kept os st c).trans (loop_kept os cs _)

theorem step_src (os : Os) (st : Dir × Dir) (c m : Bytes) (h : m ≠ c) : get (step os st c).1 m = get st.1 m := by
  unfold step
  cases get st.1 c with
  | none => rfl
  | some x =>
    rcases moveFile_src (os.moved c) x c (uniqueName st.2 c) st.1 st.2 with ⟨_, e⟩ | ⟨_, e⟩
    · show get (moveFile _ _ _ _ _ _).2.1 m = _
      rw [e]
    · show get (moveFile _ _ _ _ _ _).2.1 m = _
      rw [e, get_del, if_neg (fun e => h e.symm)]

theorem loop_src (os : Os) (m : Bytes) : ∀ (cs : List Bytes) (st : Dir × Dir), m ∉ cs → get (cs.foldl (step os) st).1 m = get st.1 m
  | [], _, _ => rfl
  | c :: cs, st, h => by
    rw [List.foldl_cons, loop_src os m cs _ (fun g => h (List.mem_cons_of_mem _ g)), step_src os st c m (fun e => h (e ▸ List.mem_cons_self))]

theorem loop_safe (os : Os) (hos : ∀ c, Complete (os.moved c)) (c : Bytes) (x : Node) (hx : Thing x) : ∀ (cs : List Bytes) (st : Dir × Dir),
    get st.1 c = some x → get (cs.foldl (step os) st).1 c = some x ∨ ∃ k, get (cs.foldl (step os) st).2 (numbered c k) = some x
  | [], _, h => Or.inl h
  | c' :: cs, st, h => by
    rw [List.foldl_cons]
    by_cases e : c = c'
    · subst e
      have hstep : step os st c = (moveFile (os.moved c) x c (uniqueName st.2 c) st.1 st.2).2 := by unfold step; rw [h]
      rw [hstep]
      rcases moveFile_src (os.moved c) x c (uniqueName st.2 c) st.1 st.2 with ⟨_, e⟩ | ⟨e, _⟩
      · exact loop_safe os hos c x hx cs _ (by rw [e]; exact h)
      · have hd := moveFile_done (os.moved c) x c (uniqueName st.2 c) st.1 st.2 (hos c) hx e
        obtain ⟨k, hk⟩ := (uniqueName_free st.2 c).1
        rw [hk] at hd
        exact Or.inr ⟨k, loop_kept os cs _ _ _ hx (by rw [hk]; exact hd)⟩
    · exact loop_safe os hos c x hx cs _ (by rw [step_src os st c' c e]; exact h)

theorem empty_iff (d : Dir) : d.isEmpty = true ↔ ∀ m, get d m = none := by
  cases d with
  | nil => exact ⟨fun _ _ => rfl, fun _ => rfl⟩
  | cons e d =>
    constructor
    · intro h; exact nomatch h
    · intro h
      have := h e.1
      unfold Files.get at this
      rw [if_pos rfl] at this
      exact nomatch this

theorem pendingLoop_false (bs : List Bool) : pendingLoop false bs = false := by
  cases bs <;> rfl

/-! ### What is at a path -/

/-- What the disk has in a directory under a name. -/
def at' (w : World) (dir name : Bytes) : Option Node := (w dir).bind (fun d => get d name)

theorem getD_at (w : World) (dir name : Bytes) : get ((w dir).getD []) name = at' w dir name := by
  unfold at'
  cases w dir <;> rfl

/-- The two requests which change the directory of an entry. -/
inductive Request where
  | category (c : Bytes)
  | name (n : Bytes)

def Request.run (cfg : Cfg) (os : Os) (n : Nzb) (w : World) : Request → Bool × Nzb × World
  | .category c => setCategory cfg os c n w
  | .name s => setName cfg os s n w

/-- What the entry is afterwards. -/
def Request.entry (cfg : Cfg) (n : Nzb) : Request → Nzb
  | .category c => { n with category := c, dir := destOf cfg { n with category := c } }
  | .name s => { n with name := niceName false s, dir := destOf cfg { n with name := niceName false s } }

/-- A request which is accepted: the entry is not in post-processing, and a new name is not empty. -/
def Request.Ok (n : Nzb) : Request → Prop
  | .category _ => n.post = false
  | .name s => n.post = false ∧ s ≠ [] ∧ n.isUrl = false

theorem run_eq (cfg : Cfg) (os : Os) (n : Nzb) (w : World) (r : Request) (h : r.Ok n) :
    r.run cfg os n w = if (r.entry cfg n).dir = n.dir then (true, r.entry cfg n, w)
      else ((moveCompleted os (r.entry cfg n) n.dir w).1, r.entry cfg n, (moveCompleted os (r.entry cfg n) n.dir w).2) := by
  cases r with
  | category c =>
    show setCategory cfg os c n w = _
    unfold setCategory
    rw [if_neg (by rw [show n.post = false from h]; exact Bool.false_ne_true)]
    rfl
  | name s =>
    obtain ⟨h1, h2, h3⟩ := h
    show setName cfg os s n w = _
    unfold setName
    rw [if_neg (by rw [h1]; exact Bool.false_ne_true), if_neg h2]
    dsimp only
    rw [if_neg (by rw [h3]; exact Bool.false_ne_true)]
    rfl

theorem entry_completed (cfg : Cfg) (n : Nzb) (r : Request) : (r.entry cfg n).completed = n.completed := by cases r <;> rfl

theorem moved_world (os : Os) (hc : os.created = true) (n : Nzb) (hne : n.completed ≠ []) (old : Bytes) (w : World) (hd : n.dir ≠ old) :
    (moveCompleted os n old w).1 = true ∧
    (∀ p m, p ≠ n.dir → p ≠ old → at' (moveCompleted os n old w).2 p m = at' w p m) ∧
    (∀ m, at' (moveCompleted os n old w).2 n.dir m = get (n.completed.foldl (step os) ((w old).getD [], (w n.dir).getD [])).2 m) ∧
    (∀ m, at' (moveCompleted os n old w).2 old m = get (n.completed.foldl (step os) ((w old).getD [], (w n.dir).getD [])).1 m ∨ w old = none) ∧
    ((moveCompleted os n old w).2 old = none ↔
      (∀ m, get (n.completed.foldl (step os) ((w old).getD [], (w n.dir).getD [])).1 m = none) ∨ w old = none) := by
  unfold moveCompleted
  rw [if_neg hne, hc, if_neg (by simp)]
  dsimp only
  rw [pendingLoop_false, Bool.not_false, Bool.and_true]
  generalize n.completed.foldl (step os) ((w old).getD [], (w n.dir).getD []) = r
  refine ⟨rfl, fun p m h1 h2 => ?_, fun m => ?_, fun m => ?_, ?_⟩
  · unfold at' setDir; rw [if_neg h2, if_neg h1]
  · unfold at' setDir; rw [if_neg hd, if_pos rfl]; rfl
  · unfold at' setDir
    rw [if_pos rfl]
    by_cases h : r.1.isEmpty = true
    · rw [if_pos h]; left; exact ((empty_iff r.1).1 h m).symm
    · rw [if_neg h]
      cases w old with
      | none => exact Or.inr rfl
      | some d => left; rfl
  · unfold setDir
    rw [if_pos rfl]
    by_cases h : r.1.isEmpty = true
    · rw [if_pos h]; exact ⟨fun _ => Or.inl ((empty_iff r.1).1 h), fun _ => rfl⟩
    · rw [if_neg h]
      cases w old with
      | none => exact ⟨fun _ => Or.inr rfl, fun _ => rfl⟩
      | some d =>
        constructor
        · intro g; exact nomatch g
        · rintro (g | g)
          · exact absurd ((empty_iff r.1).2 g) h
          · exact nomatch g

/-! ### The property -/

/-- C109: the entry has its new directory, and its downloaded files are there, under their names and with their contents; the other
files of the new directory and those of the old one which do not belong to the entry are as before; the old directory is removed
exactly if nothing is left in it. -/
theorem files_follow (cfg : Cfg) (os : Os) (n : Nzb) (w : World) (r : Request) (h : r.Ok n) (hc : os.created = true) (hos : ∀ c, os.moved c = .done)
    (hne : n.completed ≠ []) (hn : n.completed.Nodup) (h1 : ∀ c ∈ n.completed, ∃ d, at' w n.dir c = some (.file d))
    (hd : (r.entry cfg n).dir ≠ n.dir) (h2 : ∀ c ∈ n.completed, at' w (r.entry cfg n).dir c = none) :
    ∃ w', r.run cfg os n w = (true, r.entry cfg n, w') ∧
      (∀ c ∈ n.completed, at' w' (r.entry cfg n).dir c = at' w n.dir c ∧ at' w' n.dir c = none) ∧
      (∀ c, c ∉ n.completed → at' w' (r.entry cfg n).dir c = at' w (r.entry cfg n).dir c ∧ at' w' n.dir c = at' w n.dir c) ∧
      (∀ p c, p ≠ (r.entry cfg n).dir → p ≠ n.dir → at' w' p c = at' w p c) ∧
      (w' n.dir = none ↔ ∀ c, c ∉ n.completed → at' w n.dir c = none) := by
  rw [run_eq cfg os n w r h, if_neg hd]
  have hec := entry_completed cfg n r
  generalize r.entry cfg n = e at hd hec h2
  obtain ⟨m1, m2, m3, m4, m5⟩ := moved_world os hc e (by rw [hec]; exact hne) n.dir w hd
  have hl := loop_moved os hos n.completed ((w n.dir).getD [], (w e.dir).getD []) hn
    (fun c hc => by
      obtain ⟨d, hd⟩ := h1 c hc
      exact ⟨d, by rw [← hd]; exact getD_at w n.dir c⟩)
    (fun c hc => (getD_at w e.dir c).trans (h2 c hc))
  dsimp only at hl
  simp only [getD_at] at hl
  rw [hec] at m3 m4 m5
  have hold : ∃ d, w n.dir = some d := by
    obtain ⟨c, hcm⟩ := List.exists_mem_of_ne_nil _ hne
    obtain ⟨d, hd⟩ := h1 c hcm
    unfold at' at hd
    cases g : w n.dir with
    | none => rw [g] at hd; exact nomatch hd
    | some d => exact ⟨d, rfl⟩
  obtain ⟨od, hod⟩ := hold
  have m4' : ∀ m, at' (moveCompleted os e n.dir w).2 n.dir m = if m ∈ n.completed then none else at' w n.dir m := by
    intro m
    rcases m4 m with g | g
    · rw [g, (hl m).1]
    · rw [hod] at g; exact nomatch g
  refine ⟨_, by rw [m1], fun c hcm => ?_, fun c hcm => ?_, m2, ?_⟩
  · rw [m3, (hl c).2, m4', if_pos hcm, if_pos hcm]; exact ⟨rfl, rfl⟩
  · rw [m3, (hl c).2, m4', if_neg hcm, if_neg hcm]; exact ⟨rfl, rfl⟩
  · rw [m5]
    constructor
    · rintro (g | g)
      · intro c hcm
        have := g c
        rw [(hl c).1, if_neg hcm] at this
        exact this
      · rw [hod] at g; exact nomatch g
    · intro g
      left
      intro m
      rw [(hl m).1]
      split
      · rfl
      · next hm => exact g m hm

/-- C109: whatever the operating system answers, nothing in the new directory is overwritten, nothing which does not belong to the entry is
touched, and a downloaded file is still in the old directory or arrived in the new one, possibly with a number in its name - if copies
are complete. -/
theorem nothing_lost (cfg : Cfg) (os : Os) (n : Nzb) (w : World) (r : Request) :
    (∀ p c x, Thing x → p ≠ n.dir → at' w p c = some x → at' (r.run cfg os n w).2.2 p c = some x) ∧
    (∀ c x, c ∉ n.completed → at' w n.dir c = some x → at' (r.run cfg os n w).2.2 n.dir c = some x) ∧
    ((∀ c, Complete (os.moved c)) → ∀ c x, Thing x → at' w n.dir c = some x →
      at' (r.run cfg os n w).2.2 n.dir c = some x ∨ ∃ k, at' (r.run cfg os n w).2.2 (r.run cfg os n w).2.1.dir (numbered c k) = some x) := by
  have same : ∀ n', (r.run cfg os n w) = ((r.run cfg os n w).1, n', w) →
      (∀ p c x, Thing x → p ≠ n.dir → at' w p c = some x → at' (r.run cfg os n w).2.2 p c = some x) ∧
      (∀ c x, c ∉ n.completed → at' w n.dir c = some x → at' (r.run cfg os n w).2.2 n.dir c = some x) ∧
      ((∀ c, Complete (os.moved c)) → ∀ c x, Thing x → at' w n.dir c = some x →
        at' (r.run cfg os n w).2.2 n.dir c = some x ∨ ∃ k, at' (r.run cfg os n w).2.2 (r.run cfg os n w).2.1.dir (numbered c k) = some x) := by
    intro n' e
    rw [e]
    exact ⟨fun _ _ _ _ _ h => h, fun _ _ _ h => h, fun _ _ _ _ h => Or.inl h⟩
  by_cases hok : r.Ok n
  · by_cases hd : (r.entry cfg n).dir = n.dir
    · exact same (r.entry cfg n) (by rw [run_eq cfg os n w r hok, if_pos hd])
    · by_cases hne : n.completed = []
      · exact same (r.entry cfg n) (by
          rw [run_eq cfg os n w r hok, if_neg hd]
          unfold moveCompleted
          rw [entry_completed, if_pos hne])
      · by_cases hc : os.created = true
        · rw [run_eq cfg os n w r hok, if_neg hd]
          have hec := entry_completed cfg n r
          generalize r.entry cfg n = e at hd hec
          obtain ⟨m1, m2, m3, m4, m5⟩ := moved_world os hc e (by rw [hec]; exact hne) n.dir w hd
          rw [hec] at m3 m4
          dsimp only
          refine ⟨fun p c x hx hp h => ?_, fun c x hcm h => ?_, fun hos c x hx h => ?_⟩
          · by_cases hpe : p = e.dir
            · subst hpe
              rw [m3]
              exact loop_kept os n.completed _ c x hx ((getD_at w e.dir c).trans h)
            · rw [m2 p c hpe hp]; exact h
          · rcases m4 c with g | g
            · rw [g, loop_src os c n.completed _ hcm]
              exact (getD_at w n.dir c).trans h
            · unfold at' at h; rw [g] at h; exact nomatch h
          · rcases loop_safe os hos c x hx n.completed ((w n.dir).getD [], (w e.dir).getD []) ((getD_at w n.dir c).trans h) with g | ⟨k, g⟩
            · rcases m4 c with g' | g'
              · rw [g']; exact Or.inl g
              · unfold at' at h; rw [g'] at h; exact nomatch h
            · exact Or.inr ⟨k, by rw [m3]; exact g⟩
        · exact same (r.entry cfg n) (by
            rw [run_eq cfg os n w r hok, if_neg hd]
            unfold moveCompleted
            rw [entry_completed, if_neg hne, (Bool.eq_false_iff.2 hc : os.created = false), if_pos (by rfl)])
  · cases r with
    | category c =>
      have hp : n.post = true := by
        cases g : n.post with
        | true => rfl
        | false => exact absurd g hok
      refine same n ?_
      show setCategory cfg os c n w = ((setCategory cfg os c n w).1, n, w)
      unfold setCategory
      rw [hp, if_pos rfl]
    | name s =>
      have key : ∃ n', setName cfg os s n w = ((setName cfg os s n w).1, n', w) := by
        unfold setName
        cases hp : n.post with
        | true => exact ⟨n, rfl⟩
        | false =>
          rw [if_neg Bool.false_ne_true]
          by_cases hs : s = []
          · rw [if_pos hs]; exact ⟨n, rfl⟩
          · rw [if_neg hs]
            dsimp only
            cases hu : n.isUrl with
            | true => rw [if_pos rfl]; exact ⟨_, rfl⟩
            | false => exact absurd ⟨hp, hs, hu⟩ hok
      obtain ⟨n', e⟩ := key
      exact same n' e

/-- C109: an entry in post-processing and an empty name are refused, and nothing changes. -/
theorem refused (cfg : Cfg) (os : Os) (n : Nzb) (w : World) :
    (n.post = true → ∀ r : Request, r.run cfg os n w = (false, n, w)) ∧ (Request.name []).run cfg os n w = (false, n, w) := by
  refine ⟨fun h r => ?_, ?_⟩
  · cases r with
    | category c => show setCategory cfg os c n w = _; unfold setCategory; rw [h, if_pos rfl]
    | name s => show setName cfg os s n w = _; unfold setName; rw [h, if_pos rfl]
  · show setName cfg os [] n w = _
    unfold setName
    split
    · rfl
    · rfl

/-- C109: a URL gets its name, and nothing else changes. -/
theorem url_renamed (cfg : Cfg) (os : Os) (n : Nzb) (w : World) (s : Bytes) (hs : s ≠ []) (hp : n.post = false) (hu : n.isUrl = true) :
    ∃ f, (Request.name s).run cfg os n w = (true, { n with name := niceName false s, filename := f }, w) := by
  refine ⟨(niceName false s ++ lit ".nzb").take 1023, ?_⟩
  show setName cfg os s n w = _
  unfold setName
  rw [hp, if_neg Bool.false_ne_true, if_neg hs]
  dsimp only
  rw [hu, if_pos rfl]

/-- C109: in the intermediate directory two entries of the same name have different directories. -/
theorem inter_unique (cfg : Cfg) (a b : Nzb) (h : cfg.interDir ≠ []) (hn : a.name = b.name) (e : destOf cfg a = destOf cfg b) : a.id = b.id := by
  unfold destOf at e
  rw [if_neg h, if_neg h, hn] at e
  exact dec_inj (List.append_cancel_left e)

/-- C109: without an intermediate directory the files of an entry are in a directory with the name of the entry: below the directory of the category, or else below the
main directory, in a directory for the category if the user wants this. -/
theorem dest_spec (cfg : Cfg) (n : Nzb) (h : cfg.interDir = []) :
    (n.category ≠ [] → cfg.catDir n.category ≠ [] → destOf cfg n = cfg.catDir n.category ++ 47 :: n.name) ∧
    (n.category ≠ [] → cfg.catDir n.category = [] → cfg.append = true → destOf cfg n = cfg.destDir ++ 47 :: makeValid true n.category ++ 47 :: n.name) ∧
    (n.category = [] ∨ (cfg.catDir n.category = [] ∧ cfg.append = false) → destOf cfg n = cfg.destDir ++ 47 :: n.name) := by
  unfold destOf finalDir
  rw [if_pos h]
  dsimp only
  refine ⟨fun h1 h2 => ?_, fun h1 h2 h3 => ?_, fun h1 => ?_⟩
  · simp [h1, h2]
  · simp [h1, h2, h3]
  · rcases h1 with h1 | ⟨h1, h2⟩
    · simp [h1]
    · simp [h1, h2]

/-! ### Where it fails -/

/-- C109, the other way round: if the new directory already has a file of that name, the downloaded file gets another name, but the
entry still lists the old name, which is the other file. -/
theorem record_wrong (cfg : Cfg) (os : Os) (n : Nzb) (w : World) (r : Request) (h : r.Ok n) (hc : os.created = true) (hos : ∀ c, os.moved c = .done)
    (c a b : Bytes) (hn : n.completed = [c]) (h1 : at' w n.dir c = some (.file a)) (hd : (r.entry cfg n).dir ≠ n.dir)
    (h2 : at' w (r.entry cfg n).dir c = some (.file b)) (hnd : ∀ m, isDir (at' w (r.entry cfg n).dir m) = false) :
    ∃ k, k ≠ 0 ∧ (r.run cfg os n w).1 = true ∧ (r.run cfg os n w).2.1.completed = [c] ∧
      at' (r.run cfg os n w).2.2 (r.run cfg os n w).2.1.dir c = some (.file b) ∧
      at' (r.run cfg os n w).2.2 (r.run cfg os n w).2.1.dir (numbered c k) = some (.file a) := by
  rw [run_eq cfg os n w r h, if_neg hd]
  have hec := entry_completed cfg n r
  generalize r.entry cfg n = e at hd hec h2 hnd
  rw [hn] at hec
  obtain ⟨m1, m2, m3, m4, m5⟩ := moved_world os hc e (by rw [hec]; simp) n.dir w hd
  rw [hec] at m3 m4
  have hk := loop_kept os [c] ((w n.dir).getD [], (w e.dir).getD []) c (.file b) (fun e => nomatch e) ((getD_at w e.dir c).trans h2)
  obtain ⟨⟨k, hk1⟩, hk2⟩ := uniqueName_free ((w e.dir).getD []) c
  refine ⟨k, ?_, m1, hec, by rw [m3]; exact hk, ?_⟩
  · rintro rfl
    rw [hk1, show numbered c 0 = c from rfl, getD_at, h2] at hk2
    exact nomatch hk2
  · rw [m3]
    show Files.get (step os _ c).2 _ = _
    unfold step
    rw [show Files.get ((w n.dir).getD [], (w e.dir).getD []).1 c = some (.file a) from (getD_at w n.dir c).trans h1]
    dsimp only
    have hr : renameOk (Files.get ((w e.dir).getD []) (uniqueName ((w e.dir).getD []) c)) (.file a) = true := by
      have h3 := hnd (uniqueName ((w e.dir).getD []) c)
      rw [← getD_at] at h3
      generalize Files.get ((w e.dir).getD []) (uniqueName ((w e.dir).getD []) c) = o at hk2 h3
      cases o with
      | none => rfl
      | some x => cases x with
        | file d => exact nomatch hk2
        | dir t => exact nomatch h3
    rw [hos]
    unfold moveFile
    dsimp only
    rw [if_pos hr, hk1]
    dsimp only
    rw [get_put', if_pos rfl]

/-- C109, the other way round: files which could not be moved are no reason to report a failure: the request succeeds, the entry has the
new directory and its files are in the old one. -/
theorem failed_is_success (cfg : Cfg) (os : Os) (n : Nzb) (w : World) (r : Request) (h : r.Ok n) (hc : os.created = true) (hos : ∀ c, os.moved c = .error)
    (hd : (r.entry cfg n).dir ≠ n.dir) (hne : n.completed ≠ []) (c : Bytes) (x : Node) (hx : at' w n.dir c = some x) :
    (r.run cfg os n w).1 = true ∧ (r.run cfg os n w).2.1.dir ≠ n.dir ∧ at' (r.run cfg os n w).2.2 n.dir c = some x := by
  rw [run_eq cfg os n w r h, if_neg hd]
  have hec := entry_completed cfg n r
  generalize r.entry cfg n = e at hd hec
  obtain ⟨m1, m2, m3, m4, m5⟩ := moved_world os hc e (by rw [hec]; exact hne) n.dir w hd
  refine ⟨m1, hd, ?_⟩
  have hstep : ∀ st c, step os st c = st := by
    intro st c
    unfold step
    cases Files.get st.1 c with
    | none => rfl
    | some y => dsimp only; rw [hos]; rfl
  have hloop : ∀ (cs : List Bytes) st, cs.foldl (step os) st = st := by
    intro cs
    induction cs with
    | nil => intro st; rfl
    | cons c cs ih => intro st; rw [List.foldl_cons, hstep, ih]
  rcases m4 c with g | g
  · rw [g, hloop]; exact (getD_at w n.dir c).trans hx
  · unfold at' at hx; rw [g] at hx; exact nomatch hx

/-- C109, the other way round: if the new directory cannot be created the request fails, but the entry has the new directory all the
same, without its files. -/
theorem orphaned (cfg : Cfg) (os : Os) (n : Nzb) (w : World) (r : Request) (h : r.Ok n) (hc : os.created = false)
    (hd : (r.entry cfg n).dir ≠ n.dir) (hne : n.completed ≠ []) : r.run cfg os n w = (false, r.entry cfg n, w) := by
  rw [run_eq cfg os n w r h, if_neg hd]
  unfold moveCompleted
  rw [entry_completed, if_neg hne, hc]
  rfl

/-- C109, the other way round: that other files of the entry are about to be written into the old directory is no reason to keep it. -/
theorem pending_ignored (os : Os) (n : Nzb) (old : Bytes) (w : World) (ps : List Bool) :
    moveCompleted os { n with pending := ps } old w = moveCompleted os { n with pending := [] } old w := by
  unfold moveCompleted
  dsimp only
  rw [pendingLoop_false, pendingLoop_false]

/-! ### An example -/

def exCfg : Cfg := { interDir := [], destDir := lit "/d", catDir := fun _ => [], append := true }
def exNzb : Nzb := { id := 7, isUrl := false, name := lit "show", filename := lit "show.nzb", category := [], dir := lit "/d/show", post := false, completed := [lit "a.rar", lit "b.rar"], pending := [true] }
def exWorld : World := fun p =>
  if p = lit "/d/show" then some [(lit "b.rar", .file (lit "BB")), (lit "a.rar", .file (lit "A"))]
  else if p = lit "/d/tv/show" then some [(lit "x", .file (lit "X"))] else none

example : (Request.category (lit "tv")).Ok exNzb ∧ ((Request.category (lit "tv")).entry exCfg exNzb).dir = lit "/d/tv/show" ∧
    (∀ c ∈ exNzb.completed, at' exWorld (lit "/d/tv/show") c = none) ∧ exNzb.completed.Nodup ∧ exNzb.completed ≠ [] ∧
    (∀ c ∈ exNzb.completed, at' exWorld exNzb.dir c = some (.file (if c = lit "a.rar" then lit "A" else lit "BB"))) := by
  refine ⟨rfl, ?_, ?_, ?_, ?_, ?_⟩ <;> decide +kernel

example : ((Request.category (lit "tv")).run exCfg ⟨true, fun _ => .done⟩ exNzb exWorld).2.2 (lit "/d/tv/show") =
    some [(lit "b.rar", .file (lit "BB")), (lit "a.rar", .file (lit "A")), (lit "x", .file (lit "X"))] ∧
    ((Request.category (lit "tv")).run exCfg ⟨true, fun _ => .done⟩ exNzb exWorld).2.2 (lit "/d/show") = none := by decide +kernel

example : ((Request.name (lit "Show.nzb")).run exCfg ⟨true, fun _ => .done⟩ { exNzb with isUrl := true } exWorld).2.1.filename = lit "Show.nzb.nzb" := by decide +kernel

end Verif.MoveDone
