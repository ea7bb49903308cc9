import Verif.RarRename
/-
The sets of rar-volumes which are renamed are complete archives, and complete archives are found.
-/
namespace Verif.RarRename
open CStr FileName Files Rar

/- ## Specification -/

/-- The second volume continues the first: the first says there is a next one, the second has the next number, the
version is the same, and a file which goes on in the next volume has the same name there. -/
structure Continues (a b : Volume) : Prop where
  announced : a.vol.hasNext = true
  multi : b.vol.multi = true
  number : b.vol.volumeNo = a.vol.volumeNo + 1
  version : b.version = a.version
  file : ∃ x y, a.vol.files.getLast? = some x ∧ b.vol.files.head? = some y ∧ x.splitAfter = y.splitBefore ∧
    (x.splitAfter = true → x.name = y.name)

/-- The volumes of an archive from the first to the last. -/
structure Archive (s : List Volume) : Prop where
  first : ∃ v f, s.head? = some v ∧ v.vol.volumeNo = 0 ∧ v.vol.files.head? = some f ∧ f.splitBefore = false
  middle : ∀ i a b, s[i]? = some a → s[i + 1]? = some b → Continues a b
  last : ∃ v f, s.getLast? = some v ∧ v.vol.hasNext = false ∧ v.vol.files.getLast? = some f ∧ f.splitAfter = false

/- ## Lemmas -/

theorem joins_iff (a b : RFile) : joins a b = true ↔ a.splitAfter = b.splitBefore ∧ (a.splitAfter = true → a.name = b.name) := by
  unfold joins
  cases h1 : a.splitAfter <;> cases h2 : b.splitBefore <;> simp
  exact eq_comm

theorem follows_iff (a b : Volume) (h : a.vol.volumeNo + 1 < 2 ^ 32) : follows a b = true ↔ Continues a b := by
  unfold follows
  constructor
  · intro h1
    split at h1
    · rename_i x y l hx hy
      simp only [Bool.and_eq_true, beq_iff_eq] at h1
      obtain ⟨⟨⟨⟨h2, h3⟩, h4⟩, h5⟩, h6⟩ := h1
      rw [Nat.mod_eq_of_lt h] at h3
      refine ⟨h5, h2, h3, h4, x, y, hx, ?_, (joins_iff x y).mp h6⟩
      rw [hy]; rfl
    · exact nomatch h1
  · rintro ⟨h1, h2, h3, h4, x, y, hx, hy, h5⟩
    cases hb : b.vol.files with
    | nil => rw [hb] at hy; exact nomatch hy
    | cons z l =>
      rw [hb] at hy
      cases hy
      rw [hx]
      dsimp only
      simp only [Bool.and_eq_true, beq_iff_eq]
      rw [Nat.mod_eq_of_lt h]
      exact ⟨⟨⟨⟨h2, h3⟩, h4⟩, h1⟩, (joins_iff x y).mpr h5⟩

theorem isFirst_iff (v : Volume) :
    isFirst v = true ↔ v.vol.volumeNo = 0 ∧ ∃ f, v.vol.files.head? = some f ∧ f.splitBefore = false := by
  unfold isFirst
  cases h : v.vol.files with
  | nil => simp
  | cons f l => simp

theorem next_mem {vols : List Volume} {first last v : Volume} (h : next vols first last = some v) :
    v ∈ vols ∧ follows last v = true := by
  unfold next at h
  dsimp only at h
  have key : ∀ w, w ∈ vols.filter (follows last) → w ∈ vols ∧ follows last w = true := fun w hw => List.mem_filter.mp hw
  split at h
  · exact key v (List.mem_of_find?_eq_some h)
  · exact key v (List.mem_of_head? h)

theorem next_none {vols : List Volume} {first last : Volume} (h : next vols first last = none) :
    ∀ v ∈ vols, follows last v = false := by
  unfold next at h
  dsimp only at h
  split at h
  · rename_i h2
    rw [h] at h2
    exact nomatch h2.2
  · rw [List.head?_eq_none_iff] at h
    intro v hv
    cases h3 : follows last v with
    | false => rfl
    | true =>
      have : v ∈ vols.filter (follows last) := List.mem_filter.mpr ⟨hv, h3⟩
      rw [h] at this
      cases this

/- The volumes which are added continue the one before. -/
inductive Run (vols : List Volume) : Volume → List Volume → Prop
  | nil (a : Volume) : Run vols a []
  | cons {a b : Volume} {l : List Volume} : b ∈ vols → Continues a b → Run vols b l → Run vols a (b :: l)

theorem extend_run (vols : List Volume) (first : Volume) : ∀ (k : Nat) (a : Volume), a.vol.volumeNo + k < 2 ^ 32 →
    Run vols a (extend vols first k a) := by
  intro k
  induction k with
  | zero => intro a _; exact .nil a
  | succ k ih =>
    intro a h
    rw [extend]
    cases h1 : next vols first a with
    | none => exact .nil a
    | some b =>
      obtain ⟨h2, h3⟩ := next_mem h1
      have h4 := (follows_iff a b (by omega)).mp h3
      exact .cons h2 h4 (ih b (by have := h4.number; omega))

theorem run_numbers {vols : List Volume} {a : Volume} {l : List Volume} (h : Run vols a l) :
    (a :: l).map (·.vol.volumeNo) = List.range' a.vol.volumeNo (l.length + 1) := by
  induction h with
  | nil a => rfl
  | @cons a b l _ h2 _ ih =>
    rw [List.map_cons, ih, h2.number, List.length_cons, ← List.range'_succ]

theorem run_mem {vols : List Volume} {a : Volume} {l : List Volume} (h : Run vols a l) : ∀ v ∈ l, v ∈ vols := by
  induction h with
  | nil a => intro v hv; cases hv
  | @cons a b l h1 _ _ ih =>
    intro v hv
    rcases List.mem_cons.mp hv with e | hv
    · rw [e]; exact h1
    · exact ih v hv

theorem run_files {vols : List Volume} {a : Volume} {l : List Volume} (h : Run vols a l) (ha : a.vol.files ≠ []) :
    ∀ v ∈ a :: l, v.vol.files ≠ [] := by
  induction h with
  | nil a => intro v hv; rw [List.mem_singleton.mp hv]; exact ha
  | @cons a b l h1 h2 _ ih =>
    intro v hv
    rcases List.mem_cons.mp hv with e | hv
    · rw [e]; exact ha
    · refine ih ?_ v hv
      obtain ⟨x, y, _, hy, _⟩ := h2.file
      intro hb
      rw [hb] at hy
      exact nomatch hy

theorem run_middle {vols : List Volume} {a : Volume} {l : List Volume} (h : Run vols a l) :
    ∀ i x y, (a :: l)[i]? = some x → (a :: l)[i + 1]? = some y → Continues x y := by
  induction h with
  | nil a => intro i x y _ hy; rw [List.getElem?_cons_succ] at hy; exact nomatch hy
  | @cons a b l h1 h2 _ ih =>
    intro i x y hx hy
    cases i with
    | zero =>
      rw [List.getElem?_cons_zero] at hx
      rw [List.getElem?_cons_succ, List.getElem?_cons_zero] at hy
      cases hx; cases hy
      exact h2
    | succ i =>
      rw [List.getElem?_cons_succ] at hx hy
      exact ih i x y hx hy

theorem lastOf_eq (f : Volume) (l : List Volume) : (f :: l).getLast? = some (lastOf f (f :: l)) := by
  unfold lastOf
  rw [List.getLast?_eq_some_getLast (List.cons_ne_nil f l)]
  rfl

theorem mem_makeSets {vols : List Volume} {s : List Volume} (h : s ∈ makeSets vols) :
    ∃ f, f ∈ vols ∧ isFirst f = true ∧ s = wholeSet vols f ∧ completed (lastOf f s) = true := by
  unfold makeSets at h
  obtain ⟨h1, h2⟩ := List.mem_filter.mp h
  obtain ⟨f, hf, he⟩ := List.mem_map.mp h1
  obtain ⟨h3, h4⟩ := List.mem_filter.mp hf
  refine ⟨f, h3, h4, he.symm, ?_⟩
  rw [← he] at h2 ⊢
  exact h2

theorem set_run {vols : List Volume} {s : List Volume} (hl : vols.length < 2 ^ 32) (h : s ∈ makeSets vols) :
    ∃ f l, s = f :: l ∧ f ∈ vols ∧ f.vol.volumeNo = 0 ∧ f.vol.files ≠ [] ∧ Run vols f l := by
  obtain ⟨f, h1, h2, h3, _⟩ := mem_makeSets h
  obtain ⟨h4, g, hg, _⟩ := (isFirst_iff f).mp h2
  refine ⟨f, _, h3, h1, h4, ?_, extend_run vols f vols.length f (by omega)⟩
  intro h5; rw [h5] at hg; exact nomatch hg

/- ## Theorems -/

/- **Only complete archives are renamed**: the volumes of a set are volumes which were found, from the first to the
last, each one continuing the one before. -/
theorem sets_complete (vols : List Volume) (hl : vols.length < 2 ^ 32) (s : List Volume) (h : s ∈ makeSets vols) :
    Archive s ∧ (∀ v ∈ s, v ∈ vols) ∧ s.map (·.vol.volumeNo) = List.range s.length := by
  obtain ⟨f, h1, h2, h3, h4⟩ := mem_makeSets h
  obtain ⟨h5, g, hg, hg2⟩ := (isFirst_iff f).mp h2
  have hrun : Run vols f (extend vols f vols.length f) := extend_run vols f vols.length f (by omega)
  have hfiles : f.vol.files ≠ [] := by intro h5; rw [h5] at hg; exact nomatch hg
  unfold wholeSet at h3
  refine ⟨⟨⟨f, g, by rw [h3]; rfl, h5, hg, hg2⟩, ?_, ?_⟩, ?_, ?_⟩
  · rw [h3]; exact run_middle hrun
  · have hlast := lastOf_eq f (extend vols f vols.length f)
    rw [← h3] at hlast
    have hm : lastOf f s ∈ s := List.mem_of_getLast? hlast
    have hne : (lastOf f s).vol.files ≠ [] := by
      apply run_files hrun hfiles
      rw [h3] at hm ⊢
      exact hm
    unfold completed at h4
    rw [List.getLast?_eq_some_getLast hne] at h4
    simp only [Bool.and_eq_true, Bool.not_eq_true'] at h4
    exact ⟨lastOf f s, _, hlast, h4.1, List.getLast?_eq_some_getLast hne, h4.2⟩
  · rw [h3]
    intro v hv
    rcases List.mem_cons.mp hv with e | hv
    · rw [e]; exact h1
    · exact run_mem hrun v hv
  · rw [h3, run_numbers hrun, h5, List.length_cons, List.range_eq_range']

theorem next_unique {vols : List Volume} {first a b : Volume} (hb : b ∈ vols) (hf : follows a b = true)
    (hu : ∀ w ∈ vols, follows a w = true → w = b) : next vols first a = some b := by
  cases h : next vols first a with
  | none => rw [next_none h b hb] at hf; exact nomatch hf
  | some w =>
    obtain ⟨h1, h2⟩ := next_mem h
    rw [hu w h1 h2]

theorem next_end {vols : List Volume} {first a : Volume} (h : a.vol.hasNext = false) : next vols first a = none := by
  cases h1 : next vols first a with
  | none => rfl
  | some w =>
    have h2 := (next_mem h1).2
    unfold follows at h2
    rw [h] at h2
    split at h2
    · simp at h2
    · exact nomatch h2

theorem archive_numbers : ∀ (l : List Volume) (a : Volume),
    (∀ i x y, (a :: l)[i]? = some x → (a :: l)[i + 1]? = some y → Continues x y) →
    (a :: l).map (·.vol.volumeNo) = List.range' a.vol.volumeNo (l.length + 1) := by
  intro l
  induction l with
  | nil => intro a _; rfl
  | cons b l ih =>
    intro a h
    have h1 := h 0 a b rfl rfl
    have h2 := ih b (fun i x y hx hy => h (i + 1) x y (by rw [List.getElem?_cons_succ]; exact hx) (by rw [List.getElem?_cons_succ]; exact hy))
    rw [List.map_cons, h2, h1.number, List.length_cons, ← List.range'_succ]

theorem extend_finds (vols : List Volume) (first : Volume) : ∀ (l : List Volume) (a : Volume) (k : Nat),
    l.length ≤ k → a.vol.volumeNo + l.length < 2 ^ 32 → (∀ v ∈ l, v ∈ vols) →
    (∀ i x y, (a :: l)[i]? = some x → (a :: l)[i + 1]? = some y → Continues x y ∧ ∀ w ∈ vols, Continues x w → w = y) →
    (∀ v, (a :: l).getLast? = some v → v.vol.hasNext = false) → extend vols first k a = l := by
  intro l
  induction l with
  | nil =>
    intro a k _ _ _ _ h
    cases k with
    | zero => rfl
    | succ k => rw [extend, next_end (h a rfl)]
  | cons b l ih =>
    intro a k hk hn hm hc he
    cases k with
    | zero => rw [List.length_cons] at hk; omega
    | succ k =>
      rw [List.length_cons] at hk hn
      obtain ⟨h1, h2⟩ := hc 0 a b rfl rfl
      have h3 := (follows_iff a b (by omega)).mpr h1
      rw [extend, next_unique (hm b List.mem_cons_self) h3 (fun w hw hf => h2 w hw ((follows_iff a w (by omega)).mp hf))]
      dsimp only
      rw [ih b k (by omega) (by have := h1.number; omega) (fun v hv => hm v (List.mem_cons_of_mem _ hv))
        (fun i x y hx hy => hc (i + 1) x y (by rw [List.getElem?_cons_succ]; exact hx) (by rw [List.getElem?_cons_succ]; exact hy))
        (fun v hv => he v (by rw [List.getLast?_cons_cons]; exact hv))]

/- **Complete archives are found**: if all volumes of an archive were found and no other volume continues one of
them, then they are a set. -/
theorem archives_found (vols : List Volume) (hl : vols.length < 2 ^ 32) (s : List Volume) (ha : Archive s)
    (hm : ∀ v ∈ s, v ∈ vols) (hu : ∀ i a b, s[i]? = some a → s[i + 1]? = some b → ∀ w ∈ vols, Continues a w → w = b) :
    s ∈ makeSets vols := by
  obtain ⟨a, g, h1, h2, h3, h4⟩ := ha.first
  obtain ⟨e, x, h5, h6, h7, h8⟩ := ha.last
  cases s with
  | nil => exact nomatch h1
  | cons a' l =>
    cases h1
    have hnum := archive_numbers l a ha.middle
    have hnd : ((a :: l).map (·.vol.volumeNo)).Nodup := by rw [hnum]; exact List.nodup_range'
    have hnd2 : (a :: l).Nodup := by
      refine List.Pairwise.imp ?_ (List.pairwise_map.mp hnd)
      intro x y hxy h
      exact hxy (by rw [h])
    have hlen : (a :: l).length ≤ vols.length := hnd2.length_le_of_subset hm
    rw [List.length_cons] at hlen
    have hext : extend vols a vols.length a = l := by
      refine extend_finds vols a l a vols.length (by omega) (by omega) (fun v hv => hm v (List.mem_cons_of_mem _ hv)) ?_ ?_
      · intro i x y hx hy
        exact ⟨ha.middle i x y hx hy, hu i x y hx hy⟩
      · intro v hv
        rw [h5] at hv
        cases hv
        exact h6
    unfold makeSets
    refine List.mem_filter.mpr ⟨List.mem_map.mpr ⟨a, List.mem_filter.mpr ⟨hm a List.mem_cons_self, ?_⟩, ?_⟩, ?_⟩
    · exact (isFirst_iff a).mpr ⟨h2, g, h3, h4⟩
    · unfold wholeSet; rw [hext]
    · have h9 := lastOf_eq a l
      rw [h5] at h9
      have h9 := Option.some.inj h9
      dsimp only
      rw [← h9]
      unfold completed
      rw [h6, h7]
      dsimp only
      rw [h8]
      rfl

/- An archive of two volumes beside a volume of another one. -/
namespace Ex

def file (n : Bytes) (b a : Bool) (size : Nat := 10) : RFile := ⟨n, 0, 0, size, b, a⟩

def v0 : Volume := ⟨lit "d/x1", 3, { volumeNo := 0, newNaming := true, hasNext := true, multi := true, files := [file (lit "a.mkv") false true] }⟩

def v1 : Volume := ⟨lit "d/x2", 3, { volumeNo := 1, newNaming := true, hasNext := false, multi := true, files := [file (lit "a.mkv") true false, file (lit "a.nfo") false false 3] }⟩

def w1 : Volume := ⟨lit "d/x3", 3, { volumeNo := 1, newNaming := true, hasNext := true, multi := true, files := [file (lit "b.mkv") true true] }⟩

theorem sets : makeSets [v1, w1, v0] = [[v0, v1]] := by decide +kernel

example : Archive [v0, v1] ∧ (∀ v ∈ [v0, v1], v ∈ [v1, w1, v0]) ∧ [v0, v1].map (·.vol.volumeNo) = List.range 2 :=
  sets_complete [v1, w1, v0] (by decide) [v0, v1] (by rw [sets]; exact List.mem_singleton.mpr rfl)

theorem archive : Archive [v0, v1] :=
  (sets_complete [v1, w1, v0] (by decide) [v0, v1] (by rw [sets]; exact List.mem_singleton.mpr rfl)).1

example : [v0, v1] ∈ makeSets [w1, v1, v0] := by
  refine archives_found [w1, v1, v0] (by decide) [v0, v1] archive (by decide) ?_
  intro i a b ha hb w hw hc
  match i with
  | 0 =>
    cases ha; cases hb
    rcases List.mem_cons.mp hw with e | hw
    · obtain ⟨x, y, hx, hy, _, h⟩ := hc.file
      subst e
      cases hx; cases hy
      exact absurd (h rfl) (by decide)
    · rcases List.mem_cons.mp hw with e | hw
      · exact e
      · have := hc.number
        rw [List.mem_singleton.mp hw] at this
        exact absurd this (by decide)
  | i + 1 => exact nomatch hb

end Ex

end Verif.RarRename
