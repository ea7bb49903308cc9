import Verif.RarRenameRun
import Verif.CStr
/-
The new names of rar-files.
-/
namespace Verif.RarRename
open CStr FileName Files Rar

/- ## The main file -/

/-- A largest file of the archive. -/
def Largest (m : RFile) (s : List Volume) : Prop :=
  (∃ v ∈ s, m ∈ v.vol.files) ∧ ∀ v ∈ s, ∀ f ∈ v.vol.files, asInt64 f.size ≤ asInt64 m.size

theorem larger_le (a b : RFile) : asInt64 a.size ≤ asInt64 (larger a b).size ∧ asInt64 b.size ≤ asInt64 (larger a b).size ∧
    (larger a b = a ∨ larger a b = b) := by
  unfold larger
  by_cases h : asInt64 a.size < asInt64 b.size
  · rw [if_pos h]; exact ⟨by omega, by omega, Or.inr rfl⟩
  · rw [if_neg h]; exact ⟨by omega, by omega, Or.inl rfl⟩

theorem foldl_larger (l : List RFile) : ∀ (a : RFile), (l.foldl larger a ∈ a :: l) ∧
    ∀ f ∈ a :: l, asInt64 f.size ≤ asInt64 (l.foldl larger a).size := by
  induction l with
  | nil => intro a; exact ⟨List.mem_cons_self, fun f hf => by rw [List.mem_singleton.mp hf]; exact Int.le_refl _⟩
  | cons b l ih =>
    intro a
    rw [List.foldl_cons]
    obtain ⟨h1, h2⟩ := ih (larger a b)
    obtain ⟨h3, h4, h5⟩ := larger_le a b
    have h6 := h2 (larger a b) List.mem_cons_self
    refine ⟨?_, ?_⟩
    · rcases List.mem_cons.mp h1 with h | h
      · rw [h]
        rcases h5 with h5 | h5 <;> rw [h5]
        · exact List.mem_cons_self
        · exact List.mem_cons_of_mem _ List.mem_cons_self
      · exact List.mem_cons_of_mem _ (List.mem_cons_of_mem _ h)
    · intro f hf
      rcases List.mem_cons.mp hf with h | h
      · rw [h]; exact Int.le_trans h3 h6
      · rcases List.mem_cons.mp h with h | h
        · rw [h]; exact Int.le_trans h4 h6
        · exact h2 f (List.mem_cons_of_mem _ h)

theorem mainFile_largest {s : List Volume} {m : RFile} (h : mainFile (s.flatMap (·.vol.files)) = some m) : Largest m s := by
  cases h1 : s.flatMap (·.vol.files) with
  | nil => rw [h1] at h; exact nomatch h
  | cons a l =>
    rw [h1] at h
    have h := Option.some.inj h
    obtain ⟨h2, h3⟩ := foldl_larger l a
    rw [h, ← h1] at h2
    rw [h, ← h1] at h3
    refine ⟨?_, fun v hv f hf => h3 f (List.mem_flatMap.mpr ⟨v, hv, hf⟩)⟩
    obtain ⟨v, hv, hm⟩ := List.mem_flatMap.mp h2
    exact ⟨v, hv, hm⟩

theorem mainFile_some {s : List Volume} {v : Volume} (hv : v ∈ s) (hf : v.vol.files ≠ []) :
    mainFile (s.flatMap (·.vol.files)) ≠ none := by
  cases h : s.flatMap (·.vol.files) with
  | nil =>
    cases h2 : v.vol.files with
    | nil => exact absurd h2 hf
    | cons f l =>
      have : f ∈ s.flatMap (·.vol.files) := List.mem_flatMap.mpr ⟨v, hv, by rw [h2]; exact List.mem_cons_self⟩
      rw [h] at this
      cases this
  | cons a l => exact fun h => nomatch h

/- ## Arrival -/

/-- Where the volumes of a set are afterwards: they have kept good names, or they have the new names `base.ext` where
`base` is the name of the largest file within the archive, with a number if a file with one of the names without a
number or with smaller numbers existed before or exists now. -/
def Renamed (dir : Bytes) (fs fs' : Dir) (s : List Volume) : Prop :=
  (isProper s = true ∧ ∀ v ∈ s, get fs' v.path = get fs v.path) ∨
  (isProper s = false ∧ ∃ m k, Largest m s ∧
    (∀ v ∈ s, get fs' (dest dir (baseNo (mainBase m.name) k) v) = get fs v.path) ∧
    ∀ j, j < k → ∃ v ∈ s, get fs (dest dir (baseNo (mainBase m.name) j) v) ≠ none ∨
      get fs' (dest dir (baseNo (mainBase m.name) j) v) ≠ none)

theorem willOverwrite_true {fs : Dir} {dir base : Bytes} {s : List Volume} (h : willOverwrite fs dir base s = true) :
    ∃ v ∈ s, get fs (dest dir base v) ≠ none := by
  unfold willOverwrite at h
  rw [List.any_eq_true] at h
  obtain ⟨v, hv, h1⟩ := h
  refine ⟨v, hv, fun h2 => ?_⟩
  rw [h2] at h1
  simp [isFile] at h1

theorem renameSets_arrive {ans : Bytes → Bool} {dir : Bytes} {fuel : Nat} (l : List (List Volume)) : ∀ {fs fs' : Dir},
    Plain fs → (∀ s ∈ l, Good s) → (∀ s ∈ l, (s.map (·.path)).Nodup) → (∀ s ∈ l, ∃ v ∈ s, v.vol.files ≠ []) →
    (∀ s ∈ l, ∀ v ∈ s, get fs v.path ≠ none) →
    l.Pairwise (fun s t => ∀ u ∈ s, ∀ v ∈ t, u.path ≠ v.path) → (∀ p, ans p = true) →
    renameSets ans dir fuel fs l = some fs' → ∀ s ∈ l, Renamed dir fs fs' s := by
  induction l with
  | nil => intro fs fs' _ _ _ _ _ _ _ _ s hs; cases hs
  | cons t l ih =>
    intro fs fs' hp hg hn hfi hpr hdis ha h s hs
    rw [renameSets] at h
    rw [List.pairwise_cons] at hdis
    cases h1 : renameSet ans dir fuel fs t with
    | none => rw [h1] at h; exact nomatch h
    | some fs1 =>
      rw [h1] at h
      obtain ⟨a1, _, a3⟩ := renameSet_keeps hp (hg t List.mem_cons_self) h1
      have hlater : ∀ s ∈ l, ∀ v ∈ s, get fs1 v.path = get fs v.path := fun s hs v hv =>
        a3 v.path (fun u hu => fun he => hdis.1 s hs u hu v hv he.symm) (hpr s (List.mem_cons_of_mem _ hs) v hv)
      rcases List.mem_cons.mp hs with e | hs'
      · subst e
        obtain ⟨_, _, b3⟩ := renameSets_keeps l a1 (fun s hs' => hg s (List.mem_cons_of_mem _ hs')) h
        rcases renameSet_cases h1 with ⟨h2, h3⟩ | ⟨h2, m, k, hm, h3, h3', h4⟩
        · rcases h3 with h3 | h3
          · refine Or.inl ⟨h3, fun v hv => ?_⟩
            rw [h2] at b3
            exact b3 v.path (fun t ht u hu he => hdis.1 t ht v hv u hu he) (hpr s List.mem_cons_self v hv)
          · obtain ⟨v, hv, hf⟩ := hfi s List.mem_cons_self
            exact absurd h3 (mainFile_some hv hf)
        · have hf := base_free hp (hg s List.mem_cons_self) h3
          refine Or.inr ⟨h2, m, k, mainFile_largest hm, fun v hv => ?_, fun j hj => ?_⟩
          rotate_left
          · obtain ⟨v, hv, hw⟩ := willOverwrite_true (h3' j hj)
            exact ⟨v, hv, Or.inl hw⟩
          have h5 := moveAll_arrive (ans := ans) s hp hf (hn s List.mem_cons_self) (fun v _ => ha v.path) (hpr s List.mem_cons_self) v hv
          rw [← h4] at h5
          rw [← h5]
          apply b3
          · intro t ht u hu he
            by_cases hv2 : v.path = dest dir (baseNo (mainBase m.name) k) v
            · exact hdis.1 t ht v hv u hu (hv2.trans he)
            · exact hpr t (List.mem_cons_of_mem _ ht) u hu (he ▸ hf.2 v hv hv2)
          · rw [h5]; exact hpr s List.mem_cons_self v hv
      · have hpr' : ∀ s ∈ l, ∀ v ∈ s, get fs1 v.path ≠ none := fun s hs v hv => by
          rw [hlater s hs v hv]; exact hpr s (List.mem_cons_of_mem _ hs) v hv
        have := ih a1 (fun s hs' => hg s (List.mem_cons_of_mem _ hs')) (fun s hs' => hn s (List.mem_cons_of_mem _ hs'))
          (fun s hs' => hfi s (List.mem_cons_of_mem _ hs')) hpr' hdis.2 ha h s hs'
        rcases this with ⟨h2, h3⟩ | ⟨h2, m, k, hm, h3, h4⟩
        · exact Or.inl ⟨h2, fun v hv => by rw [h3 v hv, hlater s hs' v hv]⟩
        · refine Or.inr ⟨h2, m, k, hm, fun v hv => by rw [h3 v hv, hlater s hs' v hv], fun j hj => ?_⟩
          obtain ⟨v, hv, h5⟩ := h4 j hj
          refine ⟨v, hv, ?_⟩
          rcases h5 with h5 | h5
          · by_cases h6 : get fs (dest dir (baseNo (mainBase m.name) j) v) = none
            · refine Or.inr ?_
              obtain ⟨_, _, b3⟩ := renameSets_keeps l a1 (fun s hs' => hg s (List.mem_cons_of_mem _ hs')) h
              rw [b3 _ (fun t ht u hu he => hpr t (List.mem_cons_of_mem _ ht) u hu (he ▸ h6)) h5]
              exact h5
            · exact Or.inl h6
          · exact Or.inr h5

/- The volumes found in one directory have different names. -/
theorem found_nodup {rd : Bytes → Option (Nat × Vol)} {ignored : Bytes → Bool} : ∀ {l : Dir}, (l.map (·.1)).Nodup →
    ((l.filterMap (checkFile rd ignored)).map (·.path)).Nodup := by
  intro l
  induction l with
  | nil => intro _; exact List.nodup_nil
  | cons e l ih =>
    intro h
    rw [List.map_cons, List.nodup_cons] at h
    rw [List.filterMap_cons]
    cases hc : checkFile rd ignored e with
    | none => exact ih h.2
    | some v =>
      dsimp only
      rw [List.map_cons, List.nodup_cons]
      refine ⟨?_, ih h.2⟩
      intro hm
      obtain ⟨w, hw, he⟩ := List.mem_map.mp hm
      obtain ⟨e', he', hc'⟩ := List.mem_filterMap.mp hw
      apply h.1
      rw [← (checkFile_some hc).1, ← he, (checkFile_some hc').1]
      exact List.mem_map_of_mem he'

theorem nodup_of_sub {s vols : List Volume} (hv : (vols.map (·.path)).Nodup) (hm : ∀ v ∈ s, v ∈ vols) (hs : s.Nodup) :
    (s.map (·.path)).Nodup := by
  have inj : ∀ (l : List Volume), (l.map (·.path)).Nodup → ∀ a ∈ l, ∀ b ∈ l, a.path = b.path → a = b := by
    intro l
    induction l with
    | nil => intro _ a ha; cases ha
    | cons c l ih =>
      intro h a ha b hb he
      rw [List.map_cons, List.nodup_cons] at h
      rcases List.mem_cons.mp ha with e1 | h1
      · rcases List.mem_cons.mp hb with e2 | h2
        · rw [e1, e2]
        · exact absurd (List.mem_map.mpr ⟨b, h2, by rw [← he, e1]⟩) h.1
      · rcases List.mem_cons.mp hb with e2 | h2
        · exact absurd (List.mem_map.mpr ⟨a, h1, by rw [he, e2]⟩) h.1
        · exact ih h.2 a h1 b h2 he
  refine List.pairwise_map.mpr ?_
  refine List.Pairwise.imp_of_mem ?_ hs
  intro a b ha hb hne he
  exact hne (inj vols hv a (hm a ha) b (hm b hb) he)

/- **Archives get the names of their contents**: after the check of the first directory every complete archive found
in it, if the archives have no volumes in common and the operating system permits it, either has its old names, which
are good, or each volume has the name of the largest file with the extension of its number. -/
theorem archives_named_partial (rd : Bytes → Option (Nat × Vol)) (ignored ans : Bytes → Bool) (fuel : Nat) (fs : Dir) (dir : Bytes)
    (hrd : ∀ d x, rd d = some x → x.2.newNaming = true ∨ x.2.volumeNo ≤ 14200)
    (hn : (fs.map (·.1)).Nodup) (hf : ∀ e ∈ fs, ∃ d, e.2 = .file d) (hl : fs.length < 2 ^ 32) (ha : ∀ p, ans p = true)
    (st : Dir × List Volume) (h : checkFiles rd ignored ans fuel (fs, []) dir = some st)
    (hdis : (makeSets st.2).Pairwise (fun s t => ∀ u ∈ s, ∀ v ∈ t, u.path ≠ v.path)) :
    ∀ s ∈ makeSets st.2, Renamed dir fs st.1 s := by
  unfold checkFiles at h
  dsimp only at h
  rw [List.nil_append] at h
  generalize hv : (listing fs dir).filterMap (checkFile rd ignored) = vols at h
  have hlen : vols.length < 2 ^ 32 := by
    rw [← hv]
    have h1 := listing_length fs dir
    have h2 : ((listing fs dir).filterMap (checkFile rd ignored)).length ≤ (listing fs dir).length := List.length_filterMap_le _ _
    omega
  have hpaths : (vols.map (·.path)).Nodup := by
    rw [← hv]
    exact found_nodup ((List.filter_sublist.map _).nodup hn)
  have hfound : ∀ v ∈ vols, ∃ d, get fs v.path = some (.file d) ∧ rd d = some (v.version, v.vol) := by
    intro v hvv
    rw [← hv] at hvv
    obtain ⟨e, he, hc⟩ := List.mem_filterMap.mp hvv
    obtain ⟨a, _, d, c1, c2⟩ := checkFile_some hc
    exact ⟨d, by rw [a, listing_get hn he, c1], c2⟩
  cases hr : renameSets ans dir fuel fs (makeSets vols) with
  | none => rw [hr] at h; exact nomatch h
  | some fs' =>
    rw [hr] at h
    cases h
    refine renameSets_arrive (makeSets vols) ⟨hn, hf⟩ ?_ ?_ ?_ ?_ hdis ha hr
    · exact sets_good hlen (fun v hvv => by obtain ⟨d, _, h2⟩ := hfound v hvv; exact hrd d _ h2)
    · intro s hs
      obtain ⟨_, h2, h3⟩ := sets_complete vols hlen s hs
      refine nodup_of_sub hpaths h2 ?_
      have h4 : (s.map (·.vol.volumeNo)).Nodup := by rw [h3]; exact List.nodup_range
      refine List.Pairwise.imp ?_ (List.pairwise_map.mp h4)
      intro a b h5 h6
      exact h5 (by rw [h6])
    · intro s hs
      obtain ⟨f, l, h1, _, _, h2, _⟩ := set_run hlen hs
      exact ⟨f, by rw [h1]; exact List.mem_cons_self, h2⟩
    · intro s hs v hvv
      obtain ⟨d, h1, _⟩ := hfound v ((sets_complete vols hlen s hs).2.1 v hvv)
      rw [h1]
      exact fun h => nomatch h

end Verif.RarRename
