import Verif.GroupEdit
import Verif.RpcProps
import Verif.OptStoreProps
import Verif.RpcParamProps
import Verif.PpParamProps
/-! C111: edits of the queue change exactly the files and entries which are named. -/
namespace Verif.GroupEdit
open CStr

/-! ### Specification -/

/-- The files of the queue with the ids of their entries. -/
def allFiles (q : List G) : List (Nat × F) := q.flatMap fun g => g.files.map fun f => (g.id, f)

/-- Files and entries have their own ids. -/
def Ids (q : List G) : Prop := (q.map (·.id)).Nodup ∧ ((allFiles q).map (·.2.id)).Nodup

/-- The queue in which exactly the files given by `p` are paused or resumed. -/
def Paused (on : Bool) (p : G → F → Prop) (q q' : List G) : Prop :=
  ∃ h : G → F → Bool, (∀ g ∈ q, ∀ f ∈ g.files, h g f = true ↔ p g f) ∧
    q' = q.map fun g => { g with files := g.files.map fun f => { f with paused := if h g f then on else f.paused } }

/-- The name of a recovery volume: `.vol` in letters of any case. -/
def Vol (f : F) : Prop := ∃ u v, (f.name.take 1023).map WildMask.lower = u ++ lit ".vol" ++ v

/-- Which of some files are paused if only extra par-files are: if there is a par-file which is no volume all volumes, else all volumes
but one of the smallest. -/
def Extra (sel : List F) (p : F → Prop) : Prop :=
  ((∃ f ∈ sel, f.par = true ∧ ¬ Vol f) → ∀ f ∈ sel, p f ↔ f.par = true ∧ Vol f) ∧
  ((¬ ∃ f ∈ sel, f.par = true ∧ ¬ Vol f) → (∀ f ∈ sel, ¬ (f.par = true ∧ Vol f)) ∧ (∀ f ∈ sel, ¬ p f) ∨
    ∃ k ∈ sel, k.par = true ∧ Vol k ∧ (∀ f ∈ sel, f.par = true → Vol f → k.size ≤ f.size) ∧ ∀ f ∈ sel, p f ↔ f.par = true ∧ Vol f ∧ f.id ≠ k.id)

/-! ### Lists of ids -/

theorem foldl_min (l : List Nat) : ∀ m x, x = m ∨ x ∈ l → l.foldl (fun m x => if x < m then x else m) m ≤ x := by
  induction l with
  | nil => intro m x h; rcases h with rfl | h; exact Nat.le_refl _; exact nomatch h
  | cons a l ih =>
    intro m x h
    rw [List.foldl_cons]
    rcases h with rfl | h
    · by_cases c : a < x
      · rw [if_pos c]; exact Nat.le_trans (ih a a (Or.inl rfl)) (by omega)
      · rw [if_neg c]; exact ih x x (Or.inl rfl)
    · rcases List.mem_cons.1 h with rfl | h
      · by_cases c : x < m
        · rw [if_pos c]; exact ih x x (Or.inl rfl)
        · rw [if_neg c]; exact Nat.le_trans (ih m m (Or.inl rfl)) (by omega)
      · exact ih _ x (Or.inr h)

theorem foldl_max (l : List Nat) : ∀ m x, x = m ∨ x ∈ l → x ≤ l.foldl (fun m x => if x > m then x else m) m := by
  induction l with
  | nil => intro m x h; rcases h with rfl | h; exact Nat.le_refl _; exact nomatch h
  | cons a l ih =>
    intro m x h
    rw [List.foldl_cons]
    rcases h with rfl | h
    · by_cases c : a > x
      · rw [if_pos c]; exact Nat.le_trans (by omega) (ih a a (Or.inl rfl))
      · rw [if_neg c]; exact ih x x (Or.inl rfl)
    · rcases List.mem_cons.1 h with rfl | h
      · by_cases c : x > m
        · rw [if_pos c]; exact ih x x (Or.inl rfl)
        · rw [if_neg c]; exact Nat.le_trans (by omega) (ih m m (Or.inl rfl))
      · exact ih _ x (Or.inr h)

theorem inRange_mem {l : List Nat} {x : Nat} (h : x ∈ l) : inRange l x = true := by
  unfold inRange
  exact decide_eq_true ⟨foldl_min l _ x (Or.inr h), foldl_max l _ x (Or.inr h)⟩

theorem mem_groupItems (q : List G) (ids : List Nat) (x : Nat) : x ∈ groupItems q ids ↔ x ∈ ids ∧ x ∈ q.map (·.id) := by
  unfold groupItems
  rw [List.mem_flatMap]
  constructor
  · rintro ⟨id, h1, h2⟩
    split at h2
    · rw [List.mem_filter] at h2
      have : x = id := by simpa using h2.2
      subst this
      exact ⟨h1, h2.1⟩
    · exact nomatch h2
  · rintro ⟨h1, h2⟩
    refine ⟨x, h1, ?_⟩
    rw [if_pos (inRange_mem h2)]
    exact List.mem_filter.2 ⟨h2, by simp⟩

theorem fileItems_sub {q : List G} {ids : List Nat} {p : Nat × F} (h : p ∈ fileItems q ids) : p ∈ allFiles q ∧ p.2.id ∈ ids := by
  unfold fileItems at h
  rw [List.mem_filterMap] at h
  obtain ⟨id, h1, h2⟩ := h
  split at h2
  · have h3 := List.mem_of_find?_eq_some h2
    have h4 := List.find?_some h2
    have : p.2.id = id := by simpa using h4
    exact ⟨h3, this ▸ h1⟩
  · exact nomatch h2

theorem unique_file {q : List G} (hq : Ids q) {p r : Nat × F} (hp : p ∈ allFiles q) (hr : r ∈ allFiles q) (h : p.2.id = r.2.id) : p = r := by
  have := hq.2
  generalize allFiles q = l at *
  induction l with
  | nil => exact nomatch hp
  | cons a l ih =>
    rw [List.map_cons, List.nodup_cons] at this
    rcases List.mem_cons.1 hp with hp | hp
    · rcases List.mem_cons.1 hr with hr | hr
      · rw [hp, hr]
      · exact absurd (List.mem_map.2 ⟨r, hr, by rw [← h, hp]⟩) this.1
    · rcases List.mem_cons.1 hr with hr | hr
      · exact absurd (List.mem_map.2 ⟨p, hp, by rw [h, hr]⟩) this.1
      · exact ih hp hr this.2

theorem mem_fileItems {q : List G} (hq : Ids q) (ids : List Nat) (p : Nat × F) : p ∈ fileItems q ids ↔ p ∈ allFiles q ∧ p.2.id ∈ ids := by
  constructor
  · exact fileItems_sub
  · rintro ⟨h1, h2⟩
    unfold fileItems
    rw [List.mem_filterMap]
    refine ⟨p.2.id, h2, ?_⟩
    have hm : p.2.id ∈ (allFiles q).map (·.2.id) := List.mem_map.2 ⟨p, h1, rfl⟩
    show (if inRange ((allFiles q).map (·.2.id)) p.2.id then (allFiles q).find? (fun r => r.2.id == p.2.id) else none) = some p
    rw [if_pos (inRange_mem hm)]
    cases g : (allFiles q).find? (fun r => r.2.id == p.2.id) with
    | none => exact absurd (List.find?_eq_none.1 g p h1) (by simp)
    | some r =>
      have h3 := List.mem_of_find?_eq_some g
      have h4 : r.2.id = p.2.id := by simpa using List.find?_some g
      rw [unique_file hq h3 h1 h4]

theorem mem_allFiles {q : List G} {p : Nat × F} : p ∈ allFiles q ↔ ∃ g ∈ q, g.id = p.1 ∧ p.2 ∈ g.files := by
  unfold allFiles
  rw [List.mem_flatMap]
  constructor
  · rintro ⟨g, hg, h⟩
    obtain ⟨f, hf, rfl⟩ := List.mem_map.1 h
    exact ⟨g, hg, rfl, hf⟩
  · rintro ⟨g, hg, h1, h2⟩
    exact ⟨g, hg, List.mem_map.2 ⟨p.2, h2, by rw [h1]⟩⟩

/-! ### Pausing files -/

/-- Pausing all files with the given ids. -/
def touched (on : Bool) (l : List Nat) (q : List G) : List G :=
  q.map fun g => { g with files := g.files.map fun f => { f with paused := if decide (f.id ∈ l) then on else f.paused } }

theorem touched_nil (on : Bool) (q : List G) : touched on [] q = q := by
  unfold touched
  simp

theorem touched_step (on : Bool) (id : Nat) (l : List Nat) (q : List G) : touched on l (setPaused on id q) = touched on (id :: l) q := by
  unfold touched setPaused
  rw [List.map_map]
  refine List.map_congr_left fun g _ => ?_
  simp only [Function.comp, List.map_map]
  congr 1
  refine List.map_congr_left fun f _ => ?_
  simp only [Function.comp]
  by_cases c : f.id = id
  · simp [c]
  · simp [c]

theorem foldl_touched (on : Bool) (l : List Nat) : ∀ q, l.foldl (fun q id => setPaused on id q) q = touched on l q := by
  induction l with
  | nil => intro q; rw [touched_nil]; rfl
  | cons id l ih => intro q; rw [List.foldl_cons, ih, touched_step]

theorem touched_paused (on : Bool) (l : List Nat) (q : List G) (p : G → F → Prop) (h : ∀ g ∈ q, ∀ f ∈ g.files, f.id ∈ l ↔ p g f) : Paused on p q (touched on l q) :=
  ⟨fun _ f => decide (f.id ∈ l), fun g hg f hf => by rw [decide_eq_true_iff]; exact h g hg f hf, rfl⟩

theorem foldl_pause (on : Bool) (items : List (Nat × F)) (q : List G) : items.foldl (fun q p => setPaused on p.2.id q) q = touched on (items.map (·.2.id)) q := by
  rw [← foldl_touched, List.foldl_map]

/-- C111: pausing or resuming files changes exactly the files which are named; success is reported if there is one. -/
theorem files_paused (q : List G) (hq : Ids q) (ids : List Nat) (on : Bool) (args : Bytes) :
    Paused on (fun _ f => f.id ∈ ids) q (editIds (.filePause on) args ids q).1 ∧ ((editIds (.filePause on) args ids q).2 = true ↔ ∃ g ∈ q, ∃ f ∈ g.files, f.id ∈ ids) := by
  unfold editIds
  rw [if_pos (show Act.isFile (.filePause on) = true from rfl)]
  dsimp only [fileAct]
  constructor
  · rw [foldl_pause]
    refine touched_paused on _ q _ fun g hg f hf => ?_
    rw [List.mem_map]
    constructor
    · rintro ⟨p, hp, e⟩
      exact e ▸ (fileItems_sub hp).2
    · intro h
      exact ⟨(g.id, f), (mem_fileItems hq ids _).2 ⟨mem_allFiles.2 ⟨g, hg, rfl, hf⟩, h⟩, rfl⟩
  · rw [decide_eq_true_iff, List.length_pos_iff_exists_mem]
    constructor
    · rintro ⟨p, hp⟩
      obtain ⟨h1, h2⟩ := fileItems_sub hp
      obtain ⟨g, hg, _, hf⟩ := mem_allFiles.1 h1
      exact ⟨g, hg, p.2, hf, h2⟩
    · rintro ⟨g, hg, f, hf, h⟩
      exact ⟨(g.id, f), (mem_fileItems hq ids _).2 ⟨mem_allFiles.2 ⟨g, hg, rfl, hf⟩, h⟩⟩

/-! ### Par-files -/

theorem isVol_iff (f : F) : isVol f.name = true ↔ Vol f := by
  unfold isVol Vol
  exact Rpc.split_isSome_iff _ _

theorem pauseVols_some (fs : List F) : ∀ (s : F), ((s :: fs).map (·.id)).Nodup →
    ∃ k ∈ s :: fs, (∀ f ∈ s :: fs, k.size ≤ f.size) ∧ ∀ id, id ∈ pauseVols (some s) fs ↔ id ∈ (s :: fs).map (·.id) ∧ id ≠ k.id := by
  induction fs with
  | nil =>
    intro s _
    refine ⟨s, List.mem_cons_self, by simp, ?_⟩
    intro id
    simp [pauseVols]
  | cons f fs ih =>
    intro s hn
    have hn' := hn
    simp only [List.map_cons, List.nodup_cons, List.mem_cons, not_or] at hn
    obtain ⟨⟨n1, n2⟩, n3, n4⟩ := hn
    unfold pauseVols
    by_cases c : s.size > f.size
    · rw [if_pos c]
      obtain ⟨k, hk, hmin, hids⟩ := ih f (by simp only [List.map_cons, List.nodup_cons]; exact ⟨n3, n4⟩)
      have hks : s.id ≠ k.id := by
        intro e
        rcases List.mem_cons.1 hk with rfl | h
        · exact n1 e
        · exact n2 (List.mem_map.2 ⟨k, h, e.symm⟩)
      refine ⟨k, List.mem_cons_of_mem _ hk, ?_, ?_⟩
      · intro x hx
        rcases List.mem_cons.1 hx with rfl | hx
        · have := hmin f List.mem_cons_self; omega
        · exact hmin x hx
      · intro id
        rw [List.mem_cons, hids id, List.map_cons (l := f :: fs), List.mem_cons (l := (f :: fs).map (·.id))]
        constructor
        · rintro (rfl | ⟨h1, h2⟩)
          · exact ⟨Or.inl rfl, hks⟩
          · exact ⟨Or.inr h1, h2⟩
        · rintro ⟨rfl | h1, h2⟩
          · exact Or.inl rfl
          · exact Or.inr ⟨h1, h2⟩
    · rw [if_neg c]
      obtain ⟨k, hk, hmin, hids⟩ := ih s (by simp only [List.map_cons, List.nodup_cons]; exact ⟨n2, n4⟩)
      have hfk : f.id ≠ k.id := by
        intro e
        rcases List.mem_cons.1 hk with rfl | h
        · exact n1 e.symm
        · exact n3 (List.mem_map.2 ⟨k, h, e.symm⟩)
      refine ⟨k, ?_, ?_, ?_⟩
      · rcases List.mem_cons.1 hk with rfl | h
        · exact List.mem_cons_self
        · exact List.mem_cons_of_mem _ (List.mem_cons_of_mem _ h)
      · intro x hx
        rcases List.mem_cons.1 hx with rfl | hx
        · exact hmin x List.mem_cons_self
        · rcases List.mem_cons.1 hx with rfl | hx
          · have := hmin s List.mem_cons_self; omega
          · exact hmin x (List.mem_cons_of_mem _ hx)
      · intro id
        rw [List.mem_cons, hids id]
        simp only [List.map_cons, List.mem_cons]
        constructor
        · rintro (rfl | ⟨h1 | h1, h2⟩)
          · exact ⟨Or.inr (Or.inl rfl), hfk⟩
          · exact ⟨Or.inl h1, h2⟩
          · exact ⟨Or.inr (Or.inr h1), h2⟩
        · rintro ⟨h1 | h1 | h1, h2⟩
          · exact Or.inr ⟨Or.inl h1, h2⟩
          · exact Or.inl h1
          · exact Or.inr ⟨Or.inr h1, h2⟩

theorem id_mem {fs : List F} (hn : (fs.map (·.id)).Nodup) {l : List F} (hl : ∀ x ∈ l, x ∈ fs) {f : F} (hf : f ∈ fs) : f.id ∈ l.map (·.id) ↔ f ∈ l := by
  constructor
  · intro h
    obtain ⟨x, hx, e⟩ := List.mem_map.1 h
    have hx' := hl x hx
    have : x = f := by
      clear hx hl h
      induction fs with
      | nil => exact nomatch hf
      | cons a fs ih =>
        rw [List.map_cons, List.nodup_cons] at hn
        rcases List.mem_cons.1 hf with rfl | hf
        · rcases List.mem_cons.1 hx' with rfl | hx'
          · rfl
          · exact absurd (List.mem_map.2 ⟨x, hx', e⟩) hn.1
        · rcases List.mem_cons.1 hx' with hxa | hx'
          · exact absurd (List.mem_map.2 ⟨f, hf, by rw [← e, hxa]⟩) hn.1
          · exact ih hn.2 hf hx'
    exact this ▸ hx
  · intro h; exact List.mem_map.2 ⟨f, h, rfl⟩

theorem pauseVols_none (fs : List F) (hne : fs ≠ []) (hn : (fs.map (·.id)).Nodup) :
    ∃ k ∈ fs, (∀ f ∈ fs, k.size ≤ f.size) ∧ ∀ id, id ∈ pauseVols none fs ↔ id ∈ fs.map (·.id) ∧ id ≠ k.id := by
  cases fs with
  | nil => exact absurd rfl hne
  | cons s fs => exact pauseVols_some fs s hn

/-- All par-files of a list, or only the extra ones. -/
theorem pars_chosen (fs : List F) (hn : (fs.map (·.id)).Nodup) : (∀ f ∈ fs, f.id ∈ pausePars false fs ↔ f.par = true) ∧ Extra fs (fun f => f.id ∈ pausePars true fs) := by
  constructor
  · intro f hf
    show f.id ∈ (fs.filter (·.par)).map (·.id) ↔ _
    rw [id_mem hn (fun x hx => (List.mem_filter.1 hx).1) hf, List.mem_filter]
    exact ⟨fun h => h.2, fun h => ⟨hf, h⟩⟩
  · have hv : ∀ f, f ∈ (fs.filter (·.par)).filter (fun f => isVol f.name) ↔ f ∈ fs ∧ f.par = true ∧ Vol f := by
      intro f
      rw [List.mem_filter, List.mem_filter, isVol_iff]
      exact ⟨fun h => ⟨h.1.1, h.1.2, h.2⟩, fun h => ⟨⟨h.1, h.2.1⟩, h.2.2⟩⟩
    have hp : (((fs.filter (·.par)).filter (fun f => !isVol f.name)).isEmpty = true) ↔ ¬ ∃ f ∈ fs, f.par = true ∧ ¬ Vol f := by
      rw [List.isEmpty_iff, List.filter_eq_nil_iff]
      constructor
      · rintro h ⟨f, hf, h1, h2⟩
        refine h f (List.mem_filter.2 ⟨hf, h1⟩) ?_
        rw [Bool.not_eq_true', ← Bool.not_eq_true, isVol_iff]
        exact h2
      · intro h f hf h2
        rw [Bool.not_eq_true', ← Bool.not_eq_true, isVol_iff] at h2
        exact h ⟨f, (List.mem_filter.1 hf).1, (List.mem_filter.1 hf).2, h2⟩
    constructor
    · intro he f hf
      have : ¬ ((fs.filter (·.par)).filter (fun f => !isVol f.name)).isEmpty = true := fun c => (hp.1 c) he
      show f.id ∈ (if ((fs.filter (·.par)).filter (fun f => !isVol f.name)).isEmpty then _ else ((fs.filter (·.par)).filter (fun f => isVol f.name)).map (·.id)) ↔ _
      rw [if_neg this, id_mem hn (fun x hx => ((hv x).1 hx).1) hf, hv]
      exact ⟨fun h => h.2, fun h => ⟨hf, h⟩⟩
    · intro he
      have hc := hp.2 he
      show (_ ∧ ∀ f ∈ fs, ¬ f.id ∈ (if ((fs.filter (·.par)).filter (fun f => !isVol f.name)).isEmpty then _ else _)) ∨ ∃ k ∈ fs, _ ∧ _ ∧ _ ∧
        ∀ f ∈ fs, f.id ∈ (if ((fs.filter (·.par)).filter (fun f => !isVol f.name)).isEmpty then _ else _) ↔ _
      rw [if_pos hc]
      by_cases hvn : (fs.filter (·.par)).filter (fun f => isVol f.name) = []
      · left
        refine ⟨fun f hf h => ?_, fun f hf h => ?_⟩
        · have := (hv f).2 ⟨hf, h⟩
          rw [hvn] at this
          exact nomatch this
        · rw [hvn] at h
          exact nomatch h
      · right
        have hn' : (((fs.filter (·.par)).filter (fun f => isVol f.name)).map (·.id)).Nodup :=
          hn.sublist (((List.filter_sublist).trans List.filter_sublist).map _)
        obtain ⟨k, hk, hmin, hids⟩ := pauseVols_none _ hvn hn'
        obtain ⟨k1, k2, k3⟩ := (hv k).1 hk
        refine ⟨k, k1, k2, k3, fun f hf h1 h2 => hmin f ((hv f).2 ⟨hf, h1, h2⟩), fun f hf => ?_⟩
        rw [hids, id_mem hn (fun x hx => ((hv x).1 hx).1) hf, hv]
        exact ⟨fun h => ⟨h.1.2.1, h.1.2.2, h.2⟩, fun h => ⟨⟨hf, h.1, h.2.1⟩, h.2.2⟩⟩

theorem pausePars_sub (extra : Bool) (fs : List F) : ∀ id ∈ pausePars extra fs, id ∈ fs.map (·.id) := by
  have hsub : ∀ (vs : List F), (∀ s, ∀ id ∈ pauseVols (some s) vs, id = s.id ∨ id ∈ vs.map (·.id)) := by
    intro vs
    induction vs with
    | nil => intro s id h; exact nomatch h
    | cons f vs ih =>
      intro s id h
      unfold pauseVols at h
      rw [List.map_cons, List.mem_cons]
      split at h
      · rcases List.mem_cons.1 h with rfl | h
        · exact Or.inl rfl
        · exact Or.inr (ih f id h)
      · rcases List.mem_cons.1 h with rfl | h
        · exact Or.inr (Or.inl rfl)
        · rcases ih s id h with h | h
          · exact Or.inl h
          · exact Or.inr (Or.inr h)
  intro id h
  have lift : ∀ l : List F, (∀ x ∈ l, x ∈ fs) → id ∈ l.map (·.id) → id ∈ fs.map (·.id) := by
    intro l hl hid
    obtain ⟨x, hx, e⟩ := List.mem_map.1 hid
    exact List.mem_map.2 ⟨x, hl x hx, e⟩
  unfold pausePars at h
  dsimp only at h
  split at h
  · exact lift _ (fun x hx => (List.mem_filter.1 hx).1) h
  · split at h
    · refine lift ((fs.filter (·.par)).filter (fun f => isVol f.name)) (fun x hx => (List.mem_filter.1 (List.mem_filter.1 hx).1).1) ?_
      cases g : (fs.filter (·.par)).filter (fun f => isVol f.name) with
      | nil => rw [g] at h; exact nomatch h
      | cons v vs =>
        rw [g] at h
        rw [List.map_cons, List.mem_cons]
        exact hsub vs v id h
    · exact lift _ (fun x hx => (List.mem_filter.1 (List.mem_filter.1 hx).1).1) h

/-- The items of one entry. -/
def itemsOf (g : Nat) (items : List (Nat × F)) : List F := (items.filter (fun p => p.1 == g)).map (·.2)

theorem mem_parsInGroups (extra : Bool) : ∀ (k : Nat) (items : List (Nat × F)), items.length ≤ k → ∀ id, id ∈ parsInGroups extra k items ↔ ∃ g, id ∈ pausePars extra (itemsOf g items)
  | 0, items, hk, id => by
    have : items = [] := List.length_eq_zero_iff.1 (by omega)
    subst this
    constructor
    · intro h; exact nomatch h
    · rintro ⟨g, h⟩
      exact nomatch pausePars_sub extra _ id h
  | k + 1, [], _, id => by
    constructor
    · intro h; exact nomatch h
    · rintro ⟨g, h⟩
      exact nomatch pausePars_sub extra _ id h
  | k + 1, (g, f) :: items, hk, id => by
    unfold parsInGroups
    have hl : (items.filter (fun p => p.1 != g)).length ≤ k := by
      have := List.length_filter_le (fun p : Nat × F => p.1 != g) items
      simp at hk
      omega
    rw [List.mem_append, mem_parsInGroups extra k _ hl]
    have h1 : itemsOf g ((g, f) :: items) = f :: (items.filter (fun p => p.1 == g)).map (·.2) := by simp [itemsOf]
    have h2 : ∀ g', g' ≠ g → itemsOf g' ((g, f) :: items) = itemsOf g' (items.filter (fun p => p.1 != g)) := by
      intro g' hne
      unfold itemsOf
      rw [List.filter_cons, if_neg (by simpa using fun e => hne e.symm), List.filter_filter]
      congr 1
      refine List.filter_congr fun p _ => ?_
      by_cases c : p.1 = g'
      · simp [c, hne]
      · simp [c]
    have h3 : itemsOf g (items.filter (fun p => p.1 != g)) = [] := by
      unfold itemsOf
      rw [List.filter_filter, List.filter_eq_nil_iff.2 (by intro p _; simp), List.map_nil]
    constructor
    · rintro (h | ⟨g', h⟩)
      · exact ⟨g, by rw [h1]; exact h⟩
      · by_cases c : g' = g
        · subst c
          rw [h3] at h
          exact nomatch pausePars_sub extra _ id h
        · exact ⟨g', by rw [h2 g' c]; exact h⟩
    · rintro ⟨g', h⟩
      by_cases c : g' = g
      · subst c
        rw [h1] at h
        exact Or.inl h
      · rw [h2 g' c] at h
        exact Or.inr ⟨g', h⟩

theorem itemsOf_files {q : List G} (hq : Ids q) {items : List (Nat × F)} (hi : ∀ p ∈ items, p ∈ allFiles q) {g g' : G} (hg : g ∈ q) {f : F} (hf : f ∈ g.files)
    {n : Nat} (h : f.id ∈ (itemsOf n items).map (·.id)) (_ : g' = g) : n = g.id := by
  obtain ⟨x, hx, e⟩ := List.mem_map.1 h
  unfold itemsOf at hx
  obtain ⟨p, hp, rfl⟩ := List.mem_map.1 hx
  rw [List.mem_filter] at hp
  have h1 := unique_file hq (hi p hp.1) (mem_allFiles.2 ⟨g, hg, rfl, hf⟩ : (g.id, f) ∈ allFiles q) e
  have h2 : p.1 = n := by simpa using hp.2
  rw [← h2, h1]

/-- The files of an entry which are named, in the order in which they are named. -/
def named (q : List G) (ids : List Nat) (g : G) : List F := itemsOf g.id (fileItems q ids)

theorem mem_named {q : List G} (hq : Ids q) (ids : List Nat) {g : G} (hg : g ∈ q) (f : F) : f ∈ named q ids g ↔ f ∈ g.files ∧ f.id ∈ ids := by
  unfold named itemsOf
  rw [List.mem_map]
  constructor
  · rintro ⟨p, hp, rfl⟩
    rw [List.mem_filter] at hp
    obtain ⟨h1, h2⟩ := (mem_fileItems hq ids p).1 hp.1
    obtain ⟨g', hg', e, hf⟩ := mem_allFiles.1 h1
    have e2 : p.1 = g.id := by simpa using hp.2
    have : g' = g := by
      have hn := hq.1
      rw [e2] at e
      clear hp h1 hq e2 hf
      induction q with
      | nil => exact nomatch hg
      | cons a q ih =>
        rw [List.map_cons, List.nodup_cons] at hn
        rcases List.mem_cons.1 hg with hg | hg
        · rcases List.mem_cons.1 hg' with hg' | hg'
          · rw [hg, hg']
          · exact absurd (List.mem_map.2 ⟨g', hg', by rw [e, hg]⟩) hn.1
        · rcases List.mem_cons.1 hg' with hg' | hg'
          · exact absurd (List.mem_map.2 ⟨g, hg, by rw [← e, hg']⟩) hn.1
          · exact ih hg hg' hn.2
    exact ⟨this ▸ hf, h2⟩
  · rintro ⟨h1, h2⟩
    exact ⟨(g.id, f), List.mem_filter.2 ⟨(mem_fileItems hq ids _).2 ⟨mem_allFiles.2 ⟨g, hg, rfl, h1⟩, h2⟩, by simp⟩, rfl⟩

theorem fileItems_nodup (q : List G) {ids : List Nat} (hn : ids.Nodup) : ((fileItems q ids).map (·.2.id)).Nodup := by
  unfold fileItems
  dsimp only
  generalize q.flatMap (fun g => g.files.map (fun f => (g.id, f))) = all
  have key : ∀ ids : List Nat, ((ids.filterMap fun id => if inRange (all.map (·.2.id)) id then all.find? (fun p => p.2.id == id) else none).map (·.2.id)).Sublist ids := by
    intro ids
    induction ids with
    | nil => exact .slnil
    | cons id ids ih =>
      rw [List.filterMap_cons]
      split
      · exact ih.cons _
      · next p hp =>
        have : p.2.id = id := by
          split at hp
          · simpa using List.find?_some hp
          · exact nomatch hp
        rw [List.map_cons, this]
        exact ih.cons_cons _
  exact hn.sublist (key ids)

theorem named_nodup (q : List G) {ids : List Nat} (hn : ids.Nodup) (g : G) : ((named q ids g).map (·.id)).Nodup := by
  unfold named itemsOf
  rw [List.map_map]
  exact (fileItems_nodup q hn).sublist ((List.filter_sublist).map _)

/-- C111: pausing all par-files of some files pauses exactly these. -/
theorem pars_paused (q : List G) (hq : Ids q) (ids : List Nat) (hn : ids.Nodup) (args : Bytes) :
    Paused true (fun _ f => f.id ∈ ids ∧ f.par = true) q (editIds (.filePars false) args ids q).1 := by
  show Paused true _ q ((parsInGroups false _ _).foldl (fun q id => setPaused true id q) q)
  rw [foldl_touched]
  refine touched_paused true _ q _ fun g hg f hf => ?_
  rw [mem_parsInGroups false _ _ (Nat.le_refl _)]
  have hi : ∀ p ∈ fileItems q ids, p ∈ allFiles q := fun p hp => (fileItems_sub hp).1
  constructor
  · rintro ⟨n, h⟩
    have hsub := pausePars_sub _ _ _ h
    have := itemsOf_files hq hi hg hf hsub rfl
    subst this
    obtain ⟨x, hx, e⟩ := List.mem_map.1 hsub
    have hx' := (mem_named hq ids hg x).1 hx
    have hfx : x = f := congrArg Prod.snd (unique_file hq (mem_allFiles.2 ⟨g, hg, rfl, hx'.1⟩ : (g.id, x) ∈ allFiles q) (mem_allFiles.2 ⟨g, hg, rfl, hf⟩ : (g.id, f) ∈ allFiles q) e)
    subst hfx
    exact ⟨hx'.2, ((pars_chosen _ (named_nodup q hn g)).1 x hx).1 h⟩
  · rintro ⟨h1, h2⟩
    exact ⟨g.id, ((pars_chosen _ (named_nodup q hn g)).1 f ((mem_named hq ids hg f).2 ⟨hf, h1⟩)).2 h2⟩

/-- C111: pausing the extra par-files of some files pauses, in each entry, all volumes or all volumes but one of the smallest. -/
theorem extra_pars_paused (q : List G) (hq : Ids q) (ids : List Nat) (hn : ids.Nodup) (args : Bytes) :
    ∃ p : G → F → Prop, Paused true p q (editIds (.filePars true) args ids q).1 ∧ ∀ g ∈ q, (∀ f ∈ g.files, p g f → f.id ∈ ids) ∧
      ∃ sel, (∀ f, f ∈ sel ↔ f ∈ g.files ∧ f.id ∈ ids) ∧ Extra sel (p g) := by
  refine ⟨fun g f => f.id ∈ pausePars true (named q ids g), ?_, fun g hg => ⟨fun f hf h => ?_, named q ids g, mem_named hq ids hg, (pars_chosen _ (named_nodup q hn g)).2⟩⟩
  · show Paused true _ q ((parsInGroups true _ _).foldl (fun q id => setPaused true id q) q)
    rw [foldl_touched]
    refine touched_paused true _ q _ fun g hg f hf => ?_
    rw [mem_parsInGroups true _ _ (Nat.le_refl _)]
    constructor
    · rintro ⟨n, h⟩
      have := itemsOf_files hq (fun p hp => (fileItems_sub hp).1) hg hf (pausePars_sub _ _ _ h) rfl
      subst this
      exact h
    · intro h
      exact ⟨g.id, h⟩
  · obtain ⟨x, hx, e⟩ := List.mem_map.1 (pausePars_sub _ _ _ h)
    have := ((mem_named hq ids hg x).1 hx).2
    rw [e] at this
    exact this

/-! ### Entries -/

theorem isVol_paused (f : F) (b : Bool) : ({ f with paused := b } : F).id = f.id := rfl

/-- Files without the mark whether they are paused. -/
def bare (f : F) : F := { f with paused := false }

theorem pauseVols_bare (fs : List F) : ∀ s : Option F, pauseVols (s.map bare) (fs.map bare) = pauseVols s fs := by
  induction fs with
  | nil => intro s; cases s <;> rfl
  | cons f fs ih =>
    intro s
    cases s with
    | none => exact ih (some f)
    | some s =>
      rw [List.map_cons]
      show (if s.size > f.size then s.id :: pauseVols ((some f).map bare) (fs.map bare) else f.id :: pauseVols ((some s).map bare) (fs.map bare)) = _
      rw [ih, ih]
      rfl

theorem filter_bare (p : F → Bool) (hp : ∀ f, p (bare f) = p f) (fs : List F) : (fs.map bare).filter p = (fs.filter p).map bare := by
  rw [List.filter_map]
  congr 1
  exact List.filter_congr fun f _ => hp f

theorem pausePars_bare (extra : Bool) (fs : List F) : pausePars extra (fs.map bare) = pausePars extra fs := by
  have hid : ∀ l : List F, (l.map bare).map (·.id) = l.map (·.id) := by
    intro l
    rw [List.map_map]
    rfl
  unfold pausePars
  dsimp only
  rw [filter_bare (·.par) (fun _ => rfl), filter_bare (fun f => isVol f.name) (fun _ => rfl), filter_bare (fun f => !isVol f.name) (fun _ => rfl), hid, hid,
    List.isEmpty_map]
  have := pauseVols_bare ((fs.filter (·.par)).filter (fun f => isVol f.name)) none
  rw [Option.map_none] at this
  rw [this]

/-- The ids of the files which are paused or resumed in an entry. -/
def chosen (a : Act) (fs : List F) : List Nat :=
  match a with
  | .groupPause _ => fs.map (·.id)
  | .groupPars extra => pausePars extra fs
  | _ => []

def isOn : Act → Bool
  | .groupPause on => on
  | _ => true

theorem chosen_bare (a : Act) (fs : List F) : chosen a (fs.map bare) = chosen a fs := by
  unfold chosen
  split
  · rw [List.map_map]; rfl
  · exact pausePars_bare _ _
  · rfl

theorem chosen_congr (a : Act) {fs gs : List F} (h : fs.map bare = gs.map bare) : chosen a fs = chosen a gs := by
  rw [← chosen_bare, h, chosen_bare]

/-- The files with the id of an entry. -/
def filesOf (id : Nat) (q : List G) : List F := (q.filter (fun g => g.id == id)).flatMap (·.files)

theorem filesOf_touched (on : Bool) (l : List Nat) (id : Nat) (q : List G) : (filesOf id (touched on l q)).map bare = (filesOf id q).map bare := by
  unfold filesOf touched
  rw [List.filter_map, List.flatMap_map, List.map_flatMap, List.map_flatMap]
  have : ((fun g : G => g.id == id) ∘ fun g : G => { g with files := g.files.map fun f => { f with paused := if decide (f.id ∈ l) then on else f.paused } }) = fun g => g.id == id := rfl
  rw [this]
  congr 1
  funext g
  rw [List.map_map]
  rfl

theorem parsInGroups_one (extra : Bool) (n : Nat) (fs : List F) : parsInGroups extra (fs.map (fun f => (n, f))).length (fs.map (fun f => (n, f))) = pausePars extra fs := by
  cases fs with
  | nil => cases extra <;> rfl
  | cons f fs =>
    rw [List.map_cons]
    show pausePars extra (f :: ((fs.map (fun f => (n, f))).filter (fun p => p.1 == n)).map (·.2)) ++ parsInGroups extra _ ((fs.map (fun f => (n, f))).filter (fun p => p.1 != n)) = _
    have h1 : (fs.map (fun f => (n, f))).filter (fun p => p.1 == n) = fs.map (fun f => (n, f)) := List.filter_eq_self.2 (by simp)
    have h2 : (fs.map (fun f => (n, f))).filter (fun p => p.1 != n) = [] := List.filter_eq_nil_iff.2 (by simp)
    rw [h1, h2, List.map_map]
    have h3 : ∀ k, parsInGroups extra k [] = [] := by intro k; cases k <;> rfl
    rw [h3, List.append_nil]
    congr 2
    exact List.map_id _

theorem editGroup_touched (a : Act) (ha : (∃ on, a = .groupPause on) ∨ ∃ e, a = .groupPars e) (id : Nat) (q : List G) :
    editGroup a id q = touched (isOn a) (chosen a (filesOf id q)) q := by
  have hi : (q.filter (fun g => g.id == id)).flatMap (fun g => g.files.map (fun f => (g.id, f))) = (filesOf id q).map (fun f => (id, f)) := by
    unfold filesOf
    rw [List.map_flatMap]
    have : ∀ l : List G, (∀ g ∈ l, g.id = id) → l.flatMap (fun g => g.files.map (fun f => (g.id, f))) = l.flatMap (fun g => g.files.map (fun f => (id, f))) := by
      intro l hl
      induction l with
      | nil => rfl
      | cons g l ih => rw [List.flatMap_cons, List.flatMap_cons, ih (fun x hx => hl x (List.mem_cons_of_mem _ hx)), hl g List.mem_cons_self]
    refine this _ fun g hg => ?_
    simpa using (List.mem_filter.1 hg).2
  rcases ha with ⟨on, rfl⟩ | ⟨e, rfl⟩
  · unfold editGroup
    dsimp only [fileAct]
    rw [hi, foldl_pause, List.map_map]
    rfl
  · unfold editGroup
    dsimp only [fileAct]
    rw [hi, parsInGroups_one, foldl_touched]
    rfl

theorem touched_touched (on : Bool) (l m : List Nat) (q : List G) : touched on m (touched on l q) = touched on (l ++ m) q := by
  rw [← foldl_touched, ← foldl_touched, ← foldl_touched, List.foldl_append]

theorem fold_editGroup (a : Act) (ha : (∃ on, a = .groupPause on) ∨ ∃ e, a = .groupPars e) (items : List Nat) :
    ∀ q, items.foldl (fun q id => editGroup a id q) q = touched (isOn a) (items.flatMap (fun id => chosen a (filesOf id q))) q := by
  induction items with
  | nil => intro q; exact (touched_nil _ _).symm
  | cons id items ih =>
    intro q
    rw [List.foldl_cons, ih, editGroup_touched a ha, touched_touched, List.flatMap_cons]
    congr 3
    funext x
    exact chosen_congr a (filesOf_touched _ _ _ _)

theorem filter_single {q : List G} (hn : (q.map (·.id)).Nodup) {g : G} (hg : g ∈ q) : q.filter (fun x => x.id == g.id) = [g] := by
  induction q with
  | nil => exact nomatch hg
  | cons a q ih =>
    rw [List.map_cons, List.nodup_cons] at hn
    rcases List.mem_cons.1 hg with rfl | hg
    · rw [List.filter_cons, if_pos (by simp), List.filter_eq_nil_iff.2]
      intro x hx c
      exact hn.1 (List.mem_map.2 ⟨x, hx, by simpa using c⟩)
    · rw [List.filter_cons, if_neg, ih hn.2 hg]
      intro c
      exact hn.1 (List.mem_map.2 ⟨g, hg, by simpa using (beq_iff_eq.1 c).symm⟩)

theorem filesOf_eq {q : List G} (hq : Ids q) {g : G} (hg : g ∈ q) : filesOf g.id q = g.files := by
  unfold filesOf
  rw [filter_single hq.1 hg]
  simp

theorem chosen_sub (a : Act) (fs : List F) : ∀ id ∈ chosen a fs, id ∈ fs.map (·.id) := by
  intro id h
  unfold chosen at h
  split at h
  · exact h
  · exact pausePars_sub _ _ _ h
  · exact nomatch h

theorem group_paused (a : Act) (ha : (∃ on, a = .groupPause on) ∨ ∃ e, a = .groupPars e) (q : List G) (hq : Ids q) (ids : List Nat) (args : Bytes) :
    Paused (isOn a) (fun g f => g.id ∈ ids ∧ f.id ∈ chosen a g.files) q (editIds a args ids q).1 := by
  have hf : (editIds a args ids q).1 = (groupItems q ids).foldl (fun q id => editGroup a id q) q := by
    rcases ha with ⟨on, rfl⟩ | ⟨e, rfl⟩ <;> rfl
  rw [hf, fold_editGroup a ha]
  refine touched_paused _ _ _ _ fun g hg f hf => ?_
  rw [List.mem_flatMap]
  constructor
  · rintro ⟨id, h1, h2⟩
    obtain ⟨h3, h4⟩ := (mem_groupItems q ids id).1 h1
    obtain ⟨g', hg', rfl⟩ := List.mem_map.1 h4
    rw [filesOf_eq hq hg'] at h2
    obtain ⟨x, hx, e⟩ := List.mem_map.1 (chosen_sub _ _ _ h2)
    have := unique_file hq (mem_allFiles.2 ⟨g', hg', rfl, hx⟩ : (g'.id, x) ∈ allFiles q) (mem_allFiles.2 ⟨g, hg, rfl, hf⟩ : (g.id, f) ∈ allFiles q) e
    have e1 : g'.id = g.id := congrArg Prod.fst this
    have e2 : g'.files = g.files := by rw [← filesOf_eq hq hg', ← filesOf_eq hq hg, e1]
    rw [e2] at h2
    exact ⟨e1 ▸ h3, h2⟩
  · rintro ⟨h1, h2⟩
    exact ⟨g.id, (mem_groupItems q ids _).2 ⟨h1, List.mem_map.2 ⟨g, hg, rfl⟩⟩, by rw [filesOf_eq hq hg]; exact h2⟩

theorem group_success (a : Act) (ha : a.isFile = false) (q : List G) (ids : List Nat) (args : Bytes) : (editIds a args ids q).2 = true ↔ ∃ g ∈ q, g.id ∈ ids := by
  unfold editIds
  rw [if_neg (by rw [ha]; exact Bool.false_ne_true)]
  dsimp only
  rw [decide_eq_true_iff, List.length_pos_iff_exists_mem]
  constructor
  · rintro ⟨x, hx⟩
    obtain ⟨h1, h2⟩ := (mem_groupItems q ids x).1 hx
    obtain ⟨g, hg, e⟩ := List.mem_map.1 h2
    exact ⟨g, hg, e ▸ h1⟩
  · rintro ⟨g, hg, h⟩
    exact ⟨g.id, (mem_groupItems q ids _).2 ⟨h, List.mem_map.2 ⟨g, hg, rfl⟩⟩⟩

/-- C111: pausing or resuming entries changes exactly the files of the entries which are named; success is reported if there is one. -/
theorem entries_paused (q : List G) (hq : Ids q) (ids : List Nat) (on : Bool) (args : Bytes) :
    Paused on (fun g _ => g.id ∈ ids) q (editIds (.groupPause on) args ids q).1 ∧ ((editIds (.groupPause on) args ids q).2 = true ↔ ∃ g ∈ q, g.id ∈ ids) := by
  refine ⟨?_, group_success _ rfl q ids args⟩
  obtain ⟨h, h1, h2⟩ := group_paused (.groupPause on) (Or.inl ⟨on, rfl⟩) q hq ids args
  exact ⟨h, fun g hg f hf => (h1 g hg f hf).trans ⟨fun c => c.1, fun c => ⟨c, List.mem_map.2 ⟨f, hf, rfl⟩⟩⟩, h2⟩

theorem files_nodup {q : List G} (hq : Ids q) {g : G} (hg : g ∈ q) : (g.files.map (·.id)).Nodup := by
  have h := hq.2
  unfold allFiles at h
  rw [List.map_flatMap] at h
  have hs : ((g.files.map (fun f => (g.id, f))).map (·.2.id)).Sublist (q.flatMap (fun g => (g.files.map (fun f => (g.id, f))).map (·.2.id))) := by
    clear h hq
    induction q with
    | nil => exact nomatch hg
    | cons a q ih =>
      rw [List.flatMap_cons]
      rcases List.mem_cons.1 hg with rfl | hg
      · exact List.sublist_append_left _ _
      · exact (ih hg).trans (List.sublist_append_right _ _)
  have := h.sublist hs
  rw [List.map_map] at this
  exact this

/-- C111: pausing the par-files of entries pauses exactly all par-files of the entries which are named, or the extra ones of each. -/
theorem entries_pars_paused (q : List G) (hq : Ids q) (ids : List Nat) (args : Bytes) :
    Paused true (fun g f => g.id ∈ ids ∧ f.par = true) q (editIds (.groupPars false) args ids q).1 ∧
    (∃ p : G → F → Prop, Paused true p q (editIds (.groupPars true) args ids q).1 ∧
      ∀ g ∈ q, if g.id ∈ ids then Extra g.files (p g) else ∀ f ∈ g.files, ¬ p g f) ∧
    ∀ extra, (editIds (.groupPars extra) args ids q).2 = true ↔ ∃ g ∈ q, g.id ∈ ids := by
  refine ⟨?_, ?_, fun _ => group_success _ rfl q ids args⟩
  · obtain ⟨h, h1, h2⟩ := group_paused (.groupPars false) (Or.inr ⟨_, rfl⟩) q hq ids args
    refine ⟨h, fun g hg f hf => (h1 g hg f hf).trans ?_, h2⟩
    show (g.id ∈ ids ∧ f.id ∈ pausePars false g.files) ↔ (g.id ∈ ids ∧ f.par = true)
    rw [(pars_chosen _ (files_nodup hq hg)).1 f hf]
  · refine ⟨_, group_paused (.groupPars true) (Or.inr ⟨_, rfl⟩) q hq ids args, fun g hg => ?_⟩
    by_cases c : g.id ∈ ids
    · rw [if_pos c]
      have := (pars_chosen _ (files_nodup hq hg)).2
      have e : (fun f : F => g.id ∈ ids ∧ f.id ∈ chosen (.groupPars true) g.files) = fun f => f.id ∈ pausePars true g.files := by
        funext f
        simp [c, chosen]
      rw [e]
      exact this
    · rw [if_neg c]
      exact fun f _ h => c h.1

/-- Exactly the entries with the given ids are changed, by `h`. -/
def Changed (ids : List Nat) (h : G → G) (q q' : List G) : Prop := q' = q.map fun g => if g.id ∈ ids then h g else g

theorem fold_onGroup (h : G → G) (hid : ∀ g, (h g).id = g.id) : ∀ (items : List Nat) (q : List G),
    (items.Nodup ∨ ∀ g ∈ q, h (h g) = h g) → items.foldl (fun q id => onGroup h id q) q = q.map fun g => if g.id ∈ items then h g else g
  | [], q, _ => by simp
  | id :: items, q, hh => by
    rw [List.foldl_cons, fold_onGroup h hid items]
    · unfold onGroup
      rw [List.map_map]
      refine List.map_congr_left fun g hg => ?_
      simp only [Function.comp]
      by_cases c : g.id = id
      · rw [if_pos c, hid, if_pos (c := g.id ∈ id :: items) (by rw [c]; exact List.mem_cons_self)]
        by_cases d : g.id ∈ items
        · rw [if_pos d]
          rcases hh with hh | hh
          · exact absurd (c ▸ d) (List.nodup_cons.1 hh).1
          · exact hh g hg
        · rw [if_neg d]
      · rw [if_neg c]
        simp [c]
    · rcases hh with hh | hh
      · exact Or.inl (List.nodup_cons.1 hh).2
      · right
        intro x hx
        unfold onGroup at hx
        obtain ⟨g, hg, rfl⟩ := List.mem_map.1 hx
        by_cases c : g.id = id
        · rw [if_pos c, hh g hg, hh g hg]
        · rw [if_neg c]; exact hh g hg

theorem changed_of (h : G → G) (hid : ∀ g, (h g).id = g.id) (ids : List Nat) (q : List G) (hh : ∀ g ∈ q, h (h g) = h g) :
    Changed ids h q ((groupItems q ids).foldl (fun q id => onGroup h id q) q) := by
  unfold Changed
  rw [fold_onGroup h hid _ q (Or.inr hh)]
  refine List.map_congr_left fun g hg => ?_
  by_cases c : g.id ∈ ids
  · rw [if_pos c, if_pos ((mem_groupItems q ids _).2 ⟨c, List.mem_map.2 ⟨g, hg, rfl⟩⟩)]
  · rw [if_neg c, if_neg (fun d => c ((mem_groupItems q ids _).1 d).1)]

/-- C111: setting the priority, the duplicate key and the duplicate score changes just these, of exactly the entries which are named. -/
theorem attributes_set (q : List G) (ids : List Nat) (text : Bytes) (n : Int) (hn : -2 ^ 31 ≤ n ∧ n < 2 ^ 31) :
    Changed ids (fun g => { g with priority := n }) q (editIds .priority (decInt n) ids q).1 ∧
    Changed ids (fun g => { g with dupeKey := text }) q (editIds .dupeKey text ids q).1 ∧
    Changed ids (fun g => { g with dupeScore := n }) q (editIds .dupeScore (decInt n) ids q).1 ∧
    ∀ a ∈ [Act.priority, .parameter, .dupeKey, .dupeScore, .dupeMode], ∀ args, ((editIds a args ids q).2 = true ↔ ∃ g ∈ q, g.id ∈ ids) := by
  have hi : OptStore.intOf (decInt n) = n := by
    have := RpcParam.intOf_decInt n (by omega) (by omega) [] (fun _ h => nomatch h)
    rwa [List.append_nil] at this
  refine ⟨?_, ?_, ?_, fun a ha args => group_success a (by rcases ha with _ | ⟨_, _ | ⟨_, _ | ⟨_, _ | ⟨_, _ | ⟨_, h⟩⟩⟩⟩⟩ <;> first | rfl | exact nomatch h) q ids args⟩
  · have := changed_of (fun g => { g with priority := OptStore.intOf (decInt n) }) (fun _ => rfl) ids q (fun _ _ => rfl)
    rw [hi] at this
    simpa [editIds, groupAct, Act.isFile, hi] using this
  · exact changed_of (fun g => { g with dupeKey := text }) (fun _ => rfl) ids q (fun _ _ => rfl)
  · have := changed_of (fun g => { g with dupeScore := OptStore.intOf (decInt n) }) (fun _ => rfl) ids q (fun _ _ => rfl)
    rw [hi] at this
    simpa [editIds, groupAct, Act.isFile, hi] using this

theorem set_set (ps : PpParam.Params) (n v : Bytes) (hu : PpParam.Uniq ps) : PpParam.set (PpParam.set ps n v) n v = PpParam.set ps n v := by
  by_cases hv : v = []
  · subst hv
    have : ∀ ps : PpParam.Params, (∀ p ∈ ps, ¬ OptStore.Same p.1 n) → PpParam.set ps n [] = ps := by
      intro ps h
      induction ps with
      | nil => rfl
      | cons p ps ih => rw [PpParam.set_cons, if_neg (h p List.mem_cons_self), ih (fun x hx => h x (List.mem_cons_of_mem _ hx))]
    refine this _ ?_
    rw [← PpParam.find_none_iff, PpParam.find_clear ps hu, if_pos (PpParam.same_refl n)]
  · clear hu
    induction ps with
    | nil => rw [PpParam.set_nil, if_neg hv, PpParam.set_cons, if_pos (PpParam.same_refl n), if_neg hv]
    | cons p ps ih =>
      rw [PpParam.set_cons]
      by_cases c : OptStore.Same p.1 n
      · rw [if_pos c, if_neg hv, PpParam.set_cons, if_pos c, if_neg hv]
      · rw [if_neg c, PpParam.set_cons, if_neg c, ih]

theorem setParam_eq (n v : Bytes) (hn : (61 : UInt8) ∉ n) (g : G) : setParam (n ++ lit "=" ++ v) g = { g with params := PpParam.set g.params n v } := by
  have h1 : (n ++ lit "=" ++ v).takeWhile (· != 61) = n ∧ (n ++ lit "=" ++ v).dropWhile (· != 61) = 61 :: v := by
    induction n with
    | nil => exact ⟨rfl, rfl⟩
    | cons c n ih =>
      rw [List.mem_cons, not_or] at hn
      obtain ⟨i1, i2⟩ := ih hn.2
      have hc : (c != 61) = true := by simpa using fun e => hn.1 e.symm
      rw [List.cons_append, List.cons_append, List.takeWhile_cons, List.dropWhile_cons, if_pos hc, if_pos hc, i1, i2]
      exact ⟨rfl, rfl⟩
  unfold setParam
  rw [h1.2, h1.1]
  rfl

/-- C111: `name=value` gives the parameter of exactly the entries which are named the value; an empty value removes it. -/
theorem parameter_set (q : List G) (hu : ∀ g ∈ q, PpParam.Uniq g.params) (ids : List Nat) (n v : Bytes) (hn : (61 : UInt8) ∉ n) :
    ∃ h : G → G, Changed ids h q (editIds .parameter (n ++ lit "=" ++ v) ids q).1 ∧ ∀ g ∈ q, (h g = { g with params := (h g).params }) ∧ PpParam.Uniq (h g).params ∧
      ∀ m, PpParam.find (h g).params m = if OptStore.Same n m then (if v = [] then none else some v) else PpParam.find g.params m := by
  refine ⟨setParam (n ++ lit "=" ++ v), changed_of _ (fun g => by rw [setParam_eq n v hn]) ids q (fun g hg => ?_), fun g hg => ?_⟩
  · rw [setParam_eq n v hn, setParam_eq n v hn]
    dsimp only
    rw [set_set _ _ _ (hu g hg)]
  · rw [setParam_eq n v hn]
    refine ⟨rfl, PpParam.uniq_set _ (hu g hg) _ _, fun m => ?_⟩
    by_cases c : v = []
    · subst c
      rw [if_pos rfl]
      exact PpParam.find_clear _ (hu g hg) n m
    · rw [if_neg c]
      exact PpParam.find_set _ n v m c

/-- C111: the mode for duplicates is changed by the three words, in letters of any case, and by nothing else. -/
theorem mode_set (q : List G) (ids : List Nat) (args : Bytes) :
    (OptStore.Same args (lit "score") → Changed ids (fun g => { g with dupeMode := "score" }) q (editIds .dupeMode args ids q).1) ∧
    (OptStore.Same args (lit "all") → Changed ids (fun g => { g with dupeMode := "all" }) q (editIds .dupeMode args ids q).1) ∧
    (OptStore.Same args (lit "force") → Changed ids (fun g => { g with dupeMode := "force" }) q (editIds .dupeMode args ids q).1) ∧
    (¬ OptStore.Same args (lit "score") → ¬ OptStore.Same args (lit "all") → ¬ OptStore.Same args (lit "force") → (editIds .dupeMode args ids q).1 = q) := by
  have e : ∀ w W : Bytes, W.map WildMask.lower = w.map WildMask.lower → (Rpc.eqNoCase args W = true ↔ OptStore.Same args w) := by
    intro w W h
    rw [OptStore.same_iff]
    unfold OptStore.Same
    rw [h]
  have e1 := e (lit "score") (lit "SCORE") (by decide +kernel)
  have e2 := e (lit "all") (lit "ALL") (by decide +kernel)
  have e3 := e (lit "force") (lit "FORCE") (by decide +kernel)
  have ne : ∀ w W : Bytes, w.length ≠ W.length → OptStore.Same args w → ¬ OptStore.Same args W := by
    intro w W h h1 h2
    have h1' := congrArg List.length h1
    have h2' := congrArg List.length h2
    rw [List.length_map, List.length_map] at h1' h2'
    omega
  have hid : ∀ g : G, (setMode args g).id = g.id := by
    intro g; unfold setMode; split
    · rfl
    · split
      · rfl
      · split <;> rfl
  have hc := fun hi => changed_of (setMode args) hid ids q hi
  have go : ∀ m : String, (∀ g, setMode args g = { g with dupeMode := m }) → Changed ids (fun g => { g with dupeMode := m }) q (editIds .dupeMode args ids q).1 := by
    intro m hm
    have : setMode args = fun g => { g with dupeMode := m } := funext hm
    rw [this] at hc
    have h2 := hc (fun _ _ => rfl)
    rw [← this] at h2
    rw [← this]
    exact h2
  refine ⟨fun h => go _ fun g => ?_, fun h => go _ fun g => ?_, fun h => go _ fun g => ?_, fun h1 h2 h3 => ?_⟩
  · unfold setMode; rw [if_pos (e1.2 h)]
  · unfold setMode; rw [if_neg (fun c => ne (lit "all") (lit "score") (by decide) h (e1.1 c)), if_pos (e2.2 h)]
  · unfold setMode; rw [if_neg (fun c => e1.1 c |> fun d => absurd (h.symm.trans d) (by decide +kernel)), if_neg (fun c => ne (lit "force") (lit "all") (by decide) h (e2.1 c)), if_pos (e3.2 h)]
  · have hs : setMode args = fun g => g := by
      funext g
      unfold setMode
      rw [if_neg (fun c => h1 (e1.1 c)), if_neg (fun c => h2 (e2.1 c)), if_neg (fun c => h3 (e3.1 c))]
    show (groupItems q ids).foldl (fun q id => onGroup (setMode args) id q) q = q
    rw [hs]
    have : ∀ l : List Nat, l.foldl (fun q id => onGroup (fun g => g) id q) q = q := by
      intro l
      induction l with
      | nil => rfl
      | cons x l ih => rw [List.foldl_cons, show onGroup (fun g => g) x q = q by unfold onGroup; simp, ih]
    exact this _

/-! ### Names -/

/-- What has the name: in commands for files `name of the entry/name of the file`, else the name of the entry. -/
def Named (a : Act) (q : List G) (id : Nat) (n : Bytes) : Prop :=
  if a.isFile = true then ∃ g ∈ q, ∃ f ∈ g.files, id = f.id ∧ n = (g.name ++ lit "/" ++ FileName.baseName f.name).take 1023
  else ∃ g ∈ q, id = g.id ∧ n = g.name

theorem mem_candidates (a : Act) (q : List G) (id : Nat) (n : Bytes) : (id, n) ∈ candidates a q ↔ Named a q id n := by
  unfold candidates Named
  by_cases c : a.isFile = true
  · rw [if_pos c, if_pos c]
    simp only [List.mem_flatMap, List.mem_map, Prod.mk.injEq]
    constructor
    · rintro ⟨g, hg, f, hf, e1, e2⟩
      exact ⟨g, hg, f, hf, e1.symm, e2.symm⟩
    · rintro ⟨g, hg, f, hf, e1, e2⟩
      exact ⟨g, hg, f, hf, e1.symm, e2.symm⟩
  · rw [if_neg c, if_neg c]
    simp only [List.mem_map, Prod.mk.injEq]
    constructor
    · rintro ⟨g, hg, e1, e2⟩
      exact ⟨g, hg, e1.symm, e2.symm⟩
    · rintro ⟨g, hg, e1, e2⟩
      exact ⟨g, hg, e1.symm, e2.symm⟩

theorem candidates_nodup (a : Act) (q : List G) (hq : Ids q) : ((candidates a q).map (·.1)).Nodup := by
  unfold candidates
  by_cases c : a.isFile = true
  · rw [if_pos c, List.map_flatMap]
    have := hq.2
    unfold allFiles at this
    rw [List.map_flatMap] at this
    simp only [List.map_map, Function.comp_def] at this ⊢
    exact this
  · rw [if_neg c, List.map_map]
    exact hq.1

theorem mem_addNamed (p : Bytes → Bool) (cs : List (Nat × Bytes)) : ∀ used id, id ∈ addNamed p cs used ↔ id ∉ used ∧ ∃ n, (id, n) ∈ cs ∧ p n = true := by
  induction cs with
  | nil =>
    intro used id
    constructor
    · intro h; exact nomatch h
    · rintro ⟨_, _, h, _⟩; exact nomatch h
  | cons c cs ih =>
    obtain ⟨i, n⟩ := c
    intro used id
    unfold addNamed
    by_cases h : p n = true ∧ i ∉ used
    · rw [if_pos (by simpa using h), List.mem_cons, ih]
      constructor
      · rintro (rfl | ⟨h1, m, h2, h3⟩)
        · exact ⟨h.2, n, List.mem_cons_self, h.1⟩
        · exact ⟨fun c => h1 (List.mem_cons_of_mem _ c), m, List.mem_cons_of_mem _ h2, h3⟩
      · rintro ⟨h1, m, h2, h3⟩
        by_cases e : id = i
        · exact Or.inl e
        · rcases List.mem_cons.1 h2 with h2 | h2
          · exact absurd (congrArg Prod.fst h2) e
          · exact Or.inr ⟨fun c => (List.mem_cons.1 c).elim e h1, m, h2, h3⟩
    · rw [if_neg (by simpa using h), ih]
      constructor
      · rintro ⟨h1, m, h2, h3⟩
        exact ⟨h1, m, List.mem_cons_of_mem _ h2, h3⟩
      · rintro ⟨h1, m, h2, h3⟩
        rcases List.mem_cons.1 h2 with h2 | h2
        · obtain ⟨rfl, rfl⟩ := Prod.mk.inj h2
          exact absurd ⟨h3, h1⟩ h
        · exact ⟨h1, m, h2, h3⟩

theorem addNamed_nodup (p : Bytes → Bool) (cs : List (Nat × Bytes)) : ∀ used, (addNamed p cs used).Nodup := by
  induction cs with
  | nil => intro used; exact List.nodup_nil
  | cons c cs ih =>
    obtain ⟨i, n⟩ := c
    intro used
    unfold addNamed
    split
    · rw [List.nodup_cons]
      exact ⟨fun h => ((mem_addNamed p cs _ i).1 h).1 List.mem_cons_self, ih _⟩
    · exact ih _

theorem add_nodup (p : Bytes → Bool) (cs : List (Nat × Bytes)) {used : List Nat} (h : used.Nodup) : (used ++ addNamed p cs used).Nodup := by
  rw [List.nodup_append]
  refine ⟨h, addNamed_nodup _ _ _, fun a ha b hb e => ?_⟩
  exact ((mem_addNamed p cs used b).1 hb).1 (e ▸ ha)

/-- The names which were looked for and the ids which were found. -/
def Found (p : Bytes → Nat → Prop) (done : List Bytes) (used : List Nat) : Prop := ∀ id, id ∈ used ↔ ∃ n ∈ done, p n id

theorem namedIds_name (cs : List (Nat × Bytes)) (hc : (cs.map (·.1)).Nodup) : ∀ (ns done : List Bytes) (used : List Nat), Found (fun n id => (id, n) ∈ cs) done used → used.Nodup →
    (namedIds .name cs ns used = none ∧ ¬ (ns.Nodup ∧ ∀ n ∈ ns, n ∉ done ∧ ∃ id, (id, n) ∈ cs)) ∨
    ∃ ids, namedIds .name cs ns used = some ids ∧ Found (fun n id => (id, n) ∈ cs) (done ++ ns) ids ∧ ids.Nodup ∧ ns.Nodup ∧ ∀ n ∈ ns, n ∉ done ∧ ∃ id, (id, n) ∈ cs
  | [], done, used, hf, hu => by
    right
    exact ⟨used, rfl, by rw [List.append_nil]; exact hf, hu, List.nodup_nil, fun _ h => nomatch h⟩
  | n :: ns, done, used, hf, hu => by
    have uniq : ∀ id m m', (id, m) ∈ cs → (id, m') ∈ cs → m = m' := by
      intro id m m' h1 h2
      clear hf
      induction cs with
      | nil => exact nomatch h1
      | cons c cs ih =>
        rw [List.map_cons, List.nodup_cons] at hc
        rcases List.mem_cons.1 h1 with h1 | h1
        · rcases List.mem_cons.1 h2 with h2 | h2
          · exact (Prod.mk.inj (h1.trans h2.symm)).2
          · exact absurd (List.mem_map.2 ⟨_, h2, by rw [← h1]⟩) hc.1
        · rcases List.mem_cons.1 h2 with h2 | h2
          · exact absurd (List.mem_map.2 ⟨_, h1, by rw [← h2]⟩) hc.1
          · exact ih hc.2 h1 h2
    have hnew : ∀ id, id ∈ addNamed (· == n) cs used ↔ n ∉ done ∧ (id, n) ∈ cs := by
      intro id
      rw [mem_addNamed]
      constructor
      · rintro ⟨h1, m, h2, h3⟩
        have e : m = n := by simpa using h3
        subst e
        exact ⟨fun d => h1 ((hf id).2 ⟨m, d, h2⟩), h2⟩
      · rintro ⟨h1, h2⟩
        refine ⟨fun h => ?_, n, h2, by simp⟩
        obtain ⟨m, hm, h3⟩ := (hf id).1 h
        exact h1 (uniq id n m h2 h3 ▸ hm)
    have hn : namedIds .name cs (n :: ns) used = if (addNamed (· == n) cs used).isEmpty then none else namedIds .name cs ns (used ++ addNamed (· == n) cs used) := rfl
    rw [hn]
    by_cases he : (addNamed (· == n) cs used).isEmpty = true
    · left
      refine ⟨if_pos he, ?_⟩
      rintro ⟨_, h⟩
      obtain ⟨h1, id, h2⟩ := h n List.mem_cons_self
      rw [List.isEmpty_iff] at he
      have := (hnew id).2 ⟨h1, h2⟩
      rw [he] at this
      exact nomatch this
    · rw [if_neg he]
      obtain ⟨id, hid⟩ : ∃ id, id ∈ addNamed (· == n) cs used := by
        cases g : addNamed (· == n) cs used with
        | nil => rw [g] at he; exact absurd rfl he
        | cons x l => exact ⟨x, List.mem_cons_self⟩
      obtain ⟨hd, hidc⟩ := (hnew id).1 hid
      have hf' : Found (fun n id => (id, n) ∈ cs) (done ++ [n]) (used ++ addNamed (· == n) cs used) := by
        intro x
        rw [List.mem_append, hf x, hnew]
        constructor
        · rintro (⟨m, hm, h⟩ | ⟨_, h⟩)
          · exact ⟨m, List.mem_append_left _ hm, h⟩
          · exact ⟨n, List.mem_append_right _ (by simp), h⟩
        · rintro ⟨m, hm, h⟩
          rcases List.mem_append.1 hm with hm | hm
          · exact Or.inl ⟨m, hm, h⟩
          · have e : m = n := by simpa using hm
            subst e
            exact Or.inr ⟨hd, h⟩
      rcases namedIds_name cs hc ns (done ++ [n]) _ hf' (add_nodup _ _ hu) with ⟨h1, h2⟩ | ⟨ids, h1, h2, h3, h4, h5⟩
      · left
        refine ⟨h1, ?_⟩
        rintro ⟨k1, k2⟩
        rw [List.nodup_cons] at k1
        refine h2 ⟨k1.2, fun m hm => ⟨fun c => ?_, (k2 m (List.mem_cons_of_mem _ hm)).2⟩⟩
        rcases List.mem_append.1 c with c | c
        · exact (k2 m (List.mem_cons_of_mem _ hm)).1 c
        · have e : m = n := by simpa using c
          exact k1.1 (e ▸ hm)
      · right
        refine ⟨ids, h1, ?_, h3, ?_, ?_⟩
        · rw [List.append_assoc] at h2
          exact h2
        · rw [List.nodup_cons]
          exact ⟨fun c => (h5 n c).1 (List.mem_append_right _ (by simp)), h4⟩
        · intro m hm
          rcases List.mem_cons.1 hm with rfl | hm
          · exact ⟨hd, id, hidc⟩
          · exact ⟨fun c => (h5 m hm).1 (List.mem_append_left _ c), (h5 m hm).2⟩

/-- C111: a command with names does what it does with the ids of all that have one of these names, if each of them exists and is given
once; else nothing changes and failure is reported. -/
theorem names_edited (a : Act) (args : Bytes) (names : List Bytes) (q : List G) (hq : Ids q) :
    ((names.Nodup ∧ ∀ n ∈ names, ∃ id, Named a q id n) → ∃ ids, ids.Nodup ∧ (∀ id, id ∈ ids ↔ ∃ n ∈ names, Named a q id n) ∧ editNames .name a args names q = editIds a args ids q) ∧
    (¬ (names.Nodup ∧ ∀ n ∈ names, ∃ id, Named a q id n) → editNames .name a args names q = (q, false)) := by
  have hfound : Found (fun n id => (id, n) ∈ candidates a q) [] [] := by
    intro id
    constructor
    · intro h; exact nomatch h
    · rintro ⟨_, h, _⟩; exact nomatch h
  have hiff : (names.Nodup ∧ ∀ n ∈ names, ∃ id, Named a q id n) ↔ (names.Nodup ∧ ∀ n ∈ names, n ∉ ([] : List Bytes) ∧ ∃ id, (id, n) ∈ candidates a q) := by
    constructor
    · rintro ⟨h1, h2⟩
      refine ⟨h1, fun n hn => ⟨(fun c => nomatch c), ?_⟩⟩
      obtain ⟨id, h⟩ := h2 n hn
      exact ⟨id, (mem_candidates a q id n).2 h⟩
    · rintro ⟨h1, h2⟩
      refine ⟨h1, fun n hn => ?_⟩
      obtain ⟨id, h⟩ := (h2 n hn).2
      exact ⟨id, (mem_candidates a q id n).1 h⟩
  rcases namedIds_name (candidates a q) (candidates_nodup a q hq) names [] [] hfound List.nodup_nil with ⟨h1, h2⟩ | ⟨ids, h1, h2, h3, h4, h5⟩
  · refine ⟨fun c => absurd (hiff.1 c) h2, fun _ => ?_⟩
    unfold editNames
    rw [h1]
  · refine ⟨fun _ => ⟨ids, h3, fun id => ?_, ?_⟩, fun c => absurd (hiff.2 ⟨h4, h5⟩) c⟩
    · rw [h2 id, List.nil_append]
      constructor
      · rintro ⟨n, hn, h⟩
        exact ⟨n, hn, (mem_candidates a q id n).1 h⟩
      · rintro ⟨n, hn, h⟩
        exact ⟨n, hn, (mem_candidates a q id n).2 h⟩
    · unfold editNames
      rw [h1]

theorem namedIds_regex (rx : Bytes → Option (Bytes → Bool)) (cs : List (Nat × Bytes)) : ∀ (ns : List Bytes) (used : List Nat), used.Nodup →
    ((∃ n ∈ ns, rx n = none) → namedIds (.regex rx) cs ns used = none) ∧
    ((∀ n ∈ ns, rx n ≠ none) → ∃ ids, namedIds (.regex rx) cs ns used = some ids ∧ ids.Nodup ∧
      ∀ id, id ∈ ids ↔ id ∈ used ∨ ∃ n ∈ ns, ∃ p, rx n = some p ∧ ∃ m, (id, m) ∈ cs ∧ p m = true)
  | [], used, hu => by
    refine ⟨(fun ⟨_, h, _⟩ => nomatch h), fun _ => ⟨used, rfl, hu, fun id => ⟨Or.inl, fun h => ?_⟩⟩⟩
    rcases h with h | ⟨_, h, _⟩
    · exact h
    · exact nomatch h
  | n :: ns, used, hu => by
    cases hr : rx n with
    | none =>
      have hn : namedIds (.regex rx) cs (n :: ns) used = none := by
        unfold namedIds
        dsimp only
        rw [hr]
      exact ⟨fun _ => hn, fun h => absurd hr (h n List.mem_cons_self)⟩
    | some p =>
      have hn : namedIds (.regex rx) cs (n :: ns) used = namedIds (.regex rx) cs ns (used ++ addNamed p cs used) := by
        rw [namedIds]
        rw [hr]
      rw [hn]
      obtain ⟨i1, i2⟩ := namedIds_regex rx cs ns (used ++ addNamed p cs used) (add_nodup _ _ hu)
      constructor
      · rintro ⟨m, hm, h⟩
        rcases List.mem_cons.1 hm with rfl | hm
        · rw [hr] at h; exact nomatch h
        · exact i1 ⟨m, hm, h⟩
      · intro h
        obtain ⟨ids, h1, h2, h3⟩ := i2 (fun m hm => h m (List.mem_cons_of_mem _ hm))
        refine ⟨ids, h1, h2, fun id => ?_⟩
        rw [h3 id, List.mem_append, mem_addNamed]
        constructor
        · rintro ((h | ⟨_, m, h4, h5⟩) | ⟨m, hm, h⟩)
          · exact Or.inl h
          · exact Or.inr ⟨n, List.mem_cons_self, p, hr, m, h4, h5⟩
          · exact Or.inr ⟨m, List.mem_cons_of_mem _ hm, h⟩
        · rintro (h | ⟨m, hm, p', hp, x, h4, h5⟩)
          · exact Or.inl (Or.inl h)
          · rcases List.mem_cons.1 hm with rfl | hm
            · rw [hr] at hp
              have e := Option.some.inj hp
              subst e
              by_cases c : id ∈ used
              · exact Or.inl (Or.inl c)
              · exact Or.inl (Or.inr ⟨c, x, h4, h5⟩)
            · exact Or.inr ⟨m, hm, p', hp, x, h4, h5⟩

/-- C111: a command with regular expressions does what it does with the ids of all whose name matches one of them; if one of them is not
valid nothing changes and failure is reported. -/
theorem regex_edited (rx : Bytes → Option (Bytes → Bool)) (a : Act) (args : Bytes) (names : List Bytes) (q : List G) :
    ((∀ n ∈ names, rx n ≠ none) → ∃ ids, ids.Nodup ∧ (∀ id, id ∈ ids ↔ ∃ n ∈ names, ∃ p, rx n = some p ∧ ∃ m, Named a q id m ∧ p m = true) ∧
      editNames (.regex rx) a args names q = ((editIds a args ids q).1, true)) ∧
    ((∃ n ∈ names, rx n = none) → editNames (.regex rx) a args names q = (q, false)) := by
  obtain ⟨i1, i2⟩ := namedIds_regex rx (candidates a q) names [] List.nodup_nil
  constructor
  · intro h
    obtain ⟨ids, h1, h2, h3⟩ := i2 h
    refine ⟨ids, h2, fun id => ?_, ?_⟩
    · rw [h3 id]
      constructor
      · rintro (h | ⟨n, hn, p, hp, m, h4, h5⟩)
        · exact nomatch h
        · exact ⟨n, hn, p, hp, m, (mem_candidates a q id m).1 h4, h5⟩
      · rintro ⟨n, hn, p, hp, m, h4, h5⟩
        exact Or.inr ⟨n, hn, p, hp, m, (mem_candidates a q id m).2 h4, h5⟩
    · unfold editNames
      rw [h1]
  · intro h
    unfold editNames
    rw [i1 h]

/-! ### Where it does not hold -/

/-- C111 (refutes): pausing the par-files of files which are named is always reported as failed. -/
theorem pars_reported_failed (extra : Bool) (args : Bytes) (ids : List Nat) (q : List G) : (editIds (.filePars extra) args ids q).2 = false := rfl

/-- C111 (refutes): success is reported for parameters without equals sign and for unknown modes, though nothing is changed. -/
theorem wrong_argument_accepted (q : List G) (ids : List Nat) (h : ∃ g ∈ q, g.id ∈ ids) (args : Bytes) (hp : (61 : UInt8) ∉ args) (hm : 5 < args.length) :
    editIds .parameter args ids q = (q, true) ∧ editIds .dupeMode args ids q = (q, true) := by
  have hl : ∀ w : Bytes, w.length ≤ 5 → ¬ OptStore.Same args w := by
    intro w hw h
    have := congrArg List.length h
    rw [List.length_map, List.length_map] at this
    omega
  constructor
  · refine Prod.ext ?_ ((group_success .parameter rfl q ids args).2 h)
    have hs : setParam args = fun g => g := by
      funext g
      unfold setParam
      have : args.dropWhile (· != 61) = [] := by
        clear hm hl
        induction args with
        | nil => rfl
        | cons b args ih =>
          rw [List.mem_cons, not_or] at hp
          rw [List.dropWhile_cons, if_pos (by simpa using fun e => hp.1 e.symm), ih hp.2]
      rw [this]
    show (groupItems q ids).foldl (fun q id => onGroup (setParam args) id q) q = q
    rw [hs]
    have : ∀ l : List Nat, l.foldl (fun q id => onGroup (fun g => g) id q) q = q := by
      intro l
      induction l with
      | nil => rfl
      | cons x l ih => rw [List.foldl_cons, show onGroup (fun g => g) x q = q by unfold onGroup; simp, ih]
    exact this _
  · exact Prod.ext ((mode_set q ids args).2.2.2 (hl _ (by decide)) (hl _ (by decide)) (hl _ (by decide))) ((group_success .dupeMode rfl q ids args).2 h)

/-- C111 (refutes): if the id of the only recovery volume is given twice even it is paused. -/
theorem extra_pars_twice (q : List G) (hq : Ids q) (g : G) (hg : g ∈ q) (f : F) (hf : f ∈ g.files) (hp : f.par = true) (hv : Vol f) (args : Bytes) :
    Paused true (fun _ x => x.id = f.id) q (editIds (.filePars true) args [f.id, f.id] q).1 ∧
    Paused true (fun _ _ => False) q (editIds (.filePars true) args [f.id] q).1 := by
  have hv' := (isVol_iff f).2 hv
  have hfind : (if inRange ((allFiles q).map (·.2.id)) f.id then (allFiles q).find? (fun p => p.2.id == f.id) else none) = some (g.id, f) := by
    have h1 : (g.id, f) ∈ allFiles q := mem_allFiles.2 ⟨g, hg, rfl, hf⟩
    rw [if_pos (inRange_mem (List.mem_map.2 ⟨_, h1, rfl⟩))]
    cases e : (allFiles q).find? (fun r => r.2.id == f.id) with
    | none => exact absurd (List.find?_eq_none.1 e _ h1) (by simp)
    | some r =>
      have h4 : r.2.id = f.id := by simpa using List.find?_some e
      rw [unique_file hq (List.mem_of_find?_eq_some e) h1 h4]
  have i2 : fileItems q [f.id, f.id] = [(g.id, f), (g.id, f)] := by
    show [f.id, f.id].filterMap (fun id => if inRange ((allFiles q).map (·.2.id)) id then (allFiles q).find? (fun p => p.2.id == id) else none) = _
    rw [List.filterMap_cons, hfind, List.filterMap_cons, hfind]
    rfl
  have i1 : fileItems q [f.id] = [(g.id, f)] := by
    show [f.id].filterMap (fun id => if inRange ((allFiles q).map (·.2.id)) id then (allFiles q).find? (fun p => p.2.id == id) else none) = _
    rw [List.filterMap_cons, hfind]
    rfl
  have c2 : parsInGroups true 2 [(g.id, f), (g.id, f)] = [f.id] := by
    simp [parsInGroups, pausePars, hp, hv', pauseVols]
  have c1 : parsInGroups true 1 [(g.id, f)] = [] := by
    simp [parsInGroups, pausePars, hp, hv', pauseVols]
  constructor
  · show Paused true _ q ((parsInGroups true _ (fileItems q [f.id, f.id])).foldl (fun q id => setPaused true id q) q)
    rw [foldl_touched, i2]
    refine touched_paused true _ q _ fun g' hg' x hx => ?_
    show x.id ∈ parsInGroups true 2 [(g.id, f), (g.id, f)] ↔ _
    rw [c2]
    simp
  · show Paused true _ q ((parsInGroups true _ (fileItems q [f.id])).foldl (fun q id => setPaused true id q) q)
    rw [foldl_touched, i1]
    refine touched_paused true _ q _ fun g' hg' x hx => ?_
    show x.id ∈ parsInGroups true 1 [(g.id, f)] ↔ _
    rw [c1]
    simp

theorem finalDelete_some (items : List Nat) : ∀ q : List G, items.Nodup → (∀ id ∈ items, id ∈ q.map (·.id)) →
    finalDelete items q = some (q.filter (fun g => !items.contains g.id)) := by
  induction items with
  | nil => intro q _ _; exact congrArg some (List.filter_eq_self.2 (fun _ _ => rfl)).symm
  | cons id items ih =>
    intro q hn hm
    rw [List.nodup_cons] at hn
    unfold finalDelete
    rw [if_pos (by rw [List.contains_iff_mem]; exact hm id List.mem_cons_self), ih _ hn.2]
    · congr 1
      rw [List.filter_filter]
      refine List.filter_congr fun g _ => ?_
      by_cases c : g.id = id <;> simp [c]
    · intro x hx
      obtain ⟨g, hg, rfl⟩ := List.mem_map.1 (hm x (List.mem_cons_of_mem _ hx))
      refine List.mem_map.2 ⟨g, List.mem_filter.2 ⟨hg, ?_⟩, rfl⟩
      simpa using fun e : g.id = id => hn.1 (e ▸ hx)

theorem groupItems_nodup {q : List G} (hq : Ids q) {ids : List Nat} (hn : ids.Nodup) : (groupItems q ids).Nodup := by
  have key : ∀ ids : List Nat, (groupItems q ids).Sublist ids := by
    intro ids
    unfold groupItems
    induction ids with
    | nil => exact .slnil
    | cons id ids ih =>
      rw [List.flatMap_cons]
      have h1 : ((q.map (·.id)).filter (· == id)).Sublist [id] := by
        have hn := hq.1
        generalize q.map (·.id) = l at hn
        induction l with
        | nil => exact List.nil_sublist _
        | cons a l ihl =>
          rw [List.nodup_cons] at hn
          by_cases c : a = id
          · subst c
            rw [List.filter_cons, if_pos (by simp), List.filter_eq_nil_iff.2]
            · exact List.Sublist.refl _
            · intro x hx e
              have e' : x = a := by simpa using e
              exact hn.1 (e' ▸ hx)
          · rw [List.filter_cons, if_neg (by simpa using c)]
            exact ihl hn.2
      have h2 : (if inRange (q.map (·.id)) id then (q.map (·.id)).filter (· == id) else []).Sublist [id] := by
        split
        · exact h1
        · exact List.nil_sublist _
      exact h2.append ih
  exact hn.sublist (key ids)

/-- C111: final deletion of entries removes exactly those which are named, if each id is given once. -/
theorem entries_deleted (q : List G) (hq : Ids q) (ids : List Nat) (hn : ids.Nodup) : finalDelete (groupItems q ids) q = some (q.filter (fun g => decide (g.id ∉ ids))) := by
  rw [finalDelete_some _ q (groupItems_nodup hq hn) (fun id h => ((mem_groupItems q ids id).1 h).2)]
  congr 1
  refine List.filter_congr fun g hg => ?_
  have := mem_groupItems q ids g.id
  by_cases c : g.id ∈ ids
  · have h2 := this.2 ⟨c, List.mem_map.2 ⟨g, hg, rfl⟩⟩
    simp [c, h2]
  · have h2 : g.id ∉ groupItems q ids := fun h => c (this.1 h).1
    simp [c, h2]

/-- C111 (refutes): if an id is given twice, an entry is used after it was destroyed. -/
theorem deleted_twice (q : List G) (hq : Ids q) (id : Nat) (h : id ∈ q.map (·.id)) (rest : List Nat) : finalDelete (groupItems q (id :: id :: rest)) q = none := by
  have h1 : groupItems q [id] = [id] := by
    have hs := groupItems_nodup hq (ids := [id]) (by simp)
    have hm := (mem_groupItems q [id] id).2 ⟨by simp, h⟩
    have hall : ∀ x ∈ groupItems q [id], x = id := fun x hx => by simpa using ((mem_groupItems q [id] x).1 hx).1
    generalize groupItems q [id] = l at *
    match l, hs, hm, hall with
    | [x], _, _, ha => rw [ha x List.mem_cons_self]
    | x :: y :: l, hs, _, ha =>
      rw [List.nodup_cons] at hs
      have e1 := ha x List.mem_cons_self
      have e2 := ha y (by simp)
      exact absurd (by rw [e1, e2]; exact List.mem_cons_self) hs.1
  have h2 : groupItems q (id :: id :: rest) = id :: id :: groupItems q rest := by
    have : groupItems q (id :: id :: rest) = groupItems q [id] ++ (groupItems q [id] ++ groupItems q rest) := by
      simp [groupItems]
    rw [this, h1]
    rfl
  rw [h2]
  unfold finalDelete
  rw [if_pos (by rw [List.contains_iff_mem]; exact h)]
  unfold finalDelete
  rw [if_neg]
  rw [List.contains_iff_mem]
  intro c
  obtain ⟨g, hg, e⟩ := List.mem_map.1 c
  have := (List.mem_filter.1 hg).2
  simp [e] at this

/-! ### An example -/

def exF (id : Nat) (name : String) (size : Nat) (par : Bool) : F := { id := id, name := lit name, size := size, par := par, paused := false }

def exG (id : Nat) (name : String) (files : List F) : G :=
  { id := id, name := lit name, priority := 0, dupeKey := [], dupeScore := 0, dupeMode := "score", params := [(lit "*Unpack:", lit "yes")], files := files }

def exQ : List G :=
  [exG 1 "show" [exF 10 "show.rar" 500 false, exF 11 "show.par2" 5 true, exF 12 "show.VOL0+1.par2" 40 true, exF 13 "show.vol1+2.par2" 80 true],
   exG 2 "film" [exF 20 "film.rar" 900 false, exF 21 "film.vol0+1.par2" 60 true, exF 22 "film.vol1+1.par2" 30 true]]

def pausedIds (q : List G) : List Nat := (allFiles q).filterMap fun p => if p.2.paused then some p.2.id else none

example : Ids exQ := by unfold Ids; decide +kernel
example : pausedIds (editIds (.filePause true) [] [21, 10, 99] exQ).1 = [10, 21] := by decide +kernel
example : pausedIds (editIds (.filePars false) [] [10, 11, 13, 22] exQ).1 = [11, 13, 22] := by decide +kernel
example : pausedIds (editIds (.filePars true) [] [10, 11, 13, 21, 22] exQ).1 = [13, 21] := by decide +kernel
example : pausedIds (editIds (.groupPause true) [] [2] exQ).1 = [20, 21, 22] := by decide +kernel
example : pausedIds (editIds (.groupPars true) [] [1, 2, 1] exQ).1 = [12, 13, 21] := by decide +kernel
example : (editIds .priority (decInt (-50)) [2, 7] exQ).1.map (·.priority) = [0, -50] := by decide +kernel
example : (editIds .parameter (lit "*unpack:=no") [1] exQ).1.map (·.params) = [[(lit "*Unpack:", lit "no")], [(lit "*Unpack:", lit "yes")]] := by decide +kernel
example : (editIds .dupeMode (lit "Force") [1, 2] exQ).1.map (·.dupeMode) = ["force", "force"] := by decide +kernel
example : pausedIds (editNames .name (.filePause true) [] [lit "film/film.rar", lit "show/show.par2"] exQ).1 = [11, 20] := by decide +kernel
example : editNames .name (.groupPause true) [] [lit "film", lit "film"] exQ = (exQ, false) := by decide +kernel
example : pausedIds (editNames (.regex fun n => if n = lit "[" then none else some (fun m => startsWith n m)) (.groupPause true) [] [lit "fi", lit "x"] exQ).1 = [20, 21, 22] := by
  decide +kernel
example : (finalDelete (groupItems exQ [2, 5]) exQ).map (·.map (·.id)) = some [1] := by decide +kernel
example : Vol (exF 21 "film.vol0+1.par2" 60 true) := (isVol_iff _).1 (by decide +kernel)
example : ∀ g ∈ exQ, PpParam.Uniq g.params := by
  intro g hg
  rcases hg with _ | ⟨_, _ | ⟨_, h⟩⟩
  · exact List.pairwise_singleton _ _
  · exact List.pairwise_singleton _ _
  · exact nomatch h

end Verif.GroupEdit
