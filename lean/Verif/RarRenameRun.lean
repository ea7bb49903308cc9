import Verif.RarRenameProps
import Verif.RarRenameSets
/-
The renaming of rar-files as a whole.
-/
namespace Verif.RarRename
open CStr FileName Files Rar

/- ## Lemmas about sets -/

theorem freshBase_free {fs : Dir} {dir main : Bytes} {s : List Volume} : ∀ {f k : Nat} {base : Bytes},
    freshBase fs dir main s f k = some base → ∃ i, k ≤ i ∧ base = baseNo main i ∧ willOverwrite fs dir base s = false ∧
      ∀ j, k ≤ j → j < i → willOverwrite fs dir (baseNo main j) s = true := by
  intro f
  induction f with
  | zero => intro k base h; exact nomatch h
  | succ f ih =>
    intro k base h
    rw [freshBase] at h
    cases hw : willOverwrite fs dir (baseNo main k) s with
    | false =>
      rw [hw, if_neg Bool.false_ne_true] at h
      cases h
      exact ⟨k, Nat.le_refl _, rfl, hw, fun j h1 h2 => absurd h2 (by omega)⟩
    | true =>
      rw [hw, if_pos rfl] at h
      obtain ⟨i, h1, h2, h3, h4⟩ := ih h
      refine ⟨i, by omega, h2, h3, fun j hj hi => ?_⟩
      by_cases e : j = k
      · rw [e]; exact hw
      · exact h4 j (by omega) hi

theorem willOverwrite_false {fs : Dir} {dir base : Bytes} {s : List Volume} (h : Plain fs)
    (hw : willOverwrite fs dir base s = false) : ∀ v ∈ s, v.path ≠ dest dir base v → get fs (dest dir base v) = none := by
  intro v hv hne
  unfold willOverwrite at hw
  rw [List.any_eq_false] at hw
  have h1 := hw v hv
  apply get_none_of_not_file h
  cases h2 : isFile (get fs (dest dir base v)) with
  | false => rfl
  | true =>
    rw [h2] at h1
    exact absurd (by simp [hne]) h1

theorem dests_nodup {dir base : Bytes} {s : List Volume} (hn : (s.map (·.vol.volumeNo)).Nodup) (h : ∀ v ∈ s, Numbered v.vol) :
    (s.map (dest dir base)).Nodup := by
  refine List.pairwise_map.mpr ?_
  refine List.Pairwise.imp_of_mem ?_ (List.pairwise_map.mp hn)
  intro a b ha hb hab he
  exact hab (dest_inj (h a ha) (h b hb) he)

/-- The numbers of the volumes are different and can be written in names. -/
def Good (s : List Volume) : Prop := (s.map (·.vol.volumeNo)).Nodup ∧ ∀ v ∈ s, Numbered v.vol

theorem base_free {fs : Dir} {dir base : Bytes} {s : List Volume} (h : Plain fs) (hs : Good s)
    (hw : willOverwrite fs dir base s = false) : Free fs dir base s :=
  ⟨dests_nodup hs.1 hs.2, willOverwrite_false h hw⟩

/- What a renaming of one set does. -/
theorem renameSet_cases {ans : Bytes → Bool} {dir : Bytes} {fuel : Nat} {fs fs' : Dir} {s : List Volume}
    (h : renameSet ans dir fuel fs s = some fs') : fs' = fs ∧ (isProper s = true ∨ mainFile (s.flatMap (·.vol.files)) = none) ∨
      isProper s = false ∧ ∃ m k, mainFile (s.flatMap (·.vol.files)) = some m ∧
        willOverwrite fs dir (baseNo (mainBase m.name) k) s = false ∧
        (∀ j, j < k → willOverwrite fs dir (baseNo (mainBase m.name) j) s = true) ∧
        fs' = moveAll ans dir (baseNo (mainBase m.name) k) fs s := by
  unfold renameSet at h
  cases hp : isProper s with
  | true =>
    rw [hp, if_pos rfl] at h
    exact Or.inl ⟨(Option.some.inj h).symm, Or.inl rfl⟩
  | false =>
    rw [hp, if_neg Bool.false_ne_true] at h
    cases hm : mainFile (s.flatMap (·.vol.files)) with
    | none =>
      rw [hm] at h
      exact Or.inl ⟨(Option.some.inj h).symm, Or.inr rfl⟩
    | some m =>
      rw [hm] at h
      dsimp only at h
      cases hb : freshBase fs dir (mainBase m.name) s fuel 0 with
      | none => rw [hb] at h; exact nomatch h
      | some base =>
        rw [hb] at h
        obtain ⟨k, _, h2, h3, h4⟩ := freshBase_free hb
        refine Or.inr ⟨rfl, m, k, rfl, h2 ▸ h3, fun j hj => h4 j (Nat.zero_le _) hj, ?_⟩
        rw [← h2]
        exact (Option.some.inj h).symm

/- Nothing is lost, and what is not the name of a volume of the set is not touched. -/
theorem renameSet_keeps {ans : Bytes → Bool} {dir : Bytes} {fuel : Nat} {fs fs' : Dir} {s : List Volume} (hp : Plain fs)
    (hs : Good s) (h : renameSet ans dir fuel fs s = some fs') :
    Plain fs' ∧ List.Perm (fs.map (·.2)) (fs'.map (·.2)) ∧
      ∀ p, (∀ v ∈ s, p ≠ v.path) → get fs p ≠ none → get fs' p = get fs p := by
  rcases renameSet_cases h with ⟨h1, _⟩ | ⟨_, m, k, _, h2, _, h3⟩
  · rw [h1]; exact ⟨hp, List.Perm.refl _, fun _ _ _ => rfl⟩
  · have hf := base_free hp hs h2
    obtain ⟨g1, g2, g3⟩ := moveAll_free (ans := ans) s hp hf
    rw [h3]
    refine ⟨g1, g2, fun p h4 h5 => g3 p h4 ?_⟩
    intro v hv he
    by_cases hv2 : v.path = dest dir (baseNo (mainBase m.name) k) v
    · exact h4 v hv (he.trans hv2.symm)
    · exact h5 (he ▸ hf.2 v hv hv2)

theorem renameSets_keeps {ans : Bytes → Bool} {dir : Bytes} {fuel : Nat} (l : List (List Volume)) : ∀ {fs fs' : Dir},
    Plain fs → (∀ s ∈ l, Good s) → renameSets ans dir fuel fs l = some fs' →
    Plain fs' ∧ List.Perm (fs.map (·.2)) (fs'.map (·.2)) ∧
      ∀ p, (∀ s ∈ l, ∀ v ∈ s, p ≠ v.path) → get fs p ≠ none → get fs' p = get fs p := by
  induction l with
  | nil => intro fs fs' hp _ h; cases h; exact ⟨hp, List.Perm.refl _, fun _ _ _ => rfl⟩
  | cons s l ih =>
    intro fs fs' hp hs h
    rw [renameSets] at h
    cases h1 : renameSet ans dir fuel fs s with
    | none => rw [h1] at h; exact nomatch h
    | some fs1 =>
      rw [h1] at h
      obtain ⟨a1, a2, a3⟩ := renameSet_keeps hp (hs s List.mem_cons_self) h1
      obtain ⟨b1, b2, b3⟩ := ih a1 (fun s hs' => hs s (List.mem_cons_of_mem _ hs')) h
      refine ⟨b1, a2.trans b2, fun p h2 h3 => ?_⟩
      have h4 := a3 p (h2 s List.mem_cons_self) h3
      rw [b3 p (fun s hs' => h2 s (List.mem_cons_of_mem _ hs')) (by rw [h4]; exact h3), h4]

theorem sets_good {vols : List Volume} (hl : vols.length < 2 ^ 32) (hn : ∀ v ∈ vols, Numbered v.vol) :
    ∀ s ∈ makeSets vols, Good s := by
  intro s hs
  obtain ⟨_, h2, h3⟩ := sets_complete vols hl s hs
  exact ⟨by rw [h3]; exact List.nodup_range, fun v hv => hn v (h2 v hv)⟩

/- ## Contents of the files which are moved -/

/-- The file with the name of each volume, if there is one, is a volume. -/
def Vols (rd : Bytes → Option (Nat × Vol)) (fs : Dir) (paths : List Bytes) : Prop :=
  ∀ p ∈ paths, ∀ d, get fs p = some (.file d) → rd d ≠ none

theorem rename_get_cases (ok : Bool) (fs : Dir) (src dst p : Bytes) : get (rename ok fs src dst) p = none ∨
    get (rename ok fs src dst) p = get fs p ∨ get (rename ok fs src dst) p = get fs src := by
  unfold rename
  cases h : get fs src with
  | none => exact Or.inr (Or.inl rfl)
  | some x =>
    dsimp only
    by_cases h2 : (ok && renameOk (get fs dst) x) = true
    · rw [if_pos h2, get_put']
      by_cases h3 : dst = p
      · rw [if_pos h3]; exact Or.inr (Or.inr rfl)
      · rw [if_neg h3, get_del]
        by_cases h4 : src = p
        · rw [if_pos h4]; exact Or.inl rfl
        · rw [if_neg h4]; exact Or.inr (Or.inl rfl)
    · rw [if_neg h2]; exact Or.inr (Or.inl rfl)

theorem vols_rename {rd : Bytes → Option (Nat × Vol)} {fs : Dir} {paths : List Bytes} (h : Vols rd fs paths) (ok : Bool)
    (src dst : Bytes) (hs : src ∈ paths) : Vols rd (rename ok fs src dst) paths := by
  intro p hp d hd
  rcases rename_get_cases ok fs src dst p with h1 | h1 | h1
  · rw [h1] at hd; exact nomatch hd
  · exact h p hp d (h1 ▸ hd)
  · exact h src hs d (h1 ▸ hd)

theorem vols_moveAll {rd : Bytes → Option (Nat × Vol)} {paths : List Bytes} {ans : Bytes → Bool} {dir base : Bytes}
    (s : List Volume) : ∀ {fs : Dir}, Vols rd fs paths → (∀ v ∈ s, v.path ∈ paths) →
    Vols rd (moveAll ans dir base fs s) paths := by
  induction s with
  | nil => intro fs h _; exact h
  | cons v s ih =>
    intro fs h hs
    rw [moveAll_cons]
    apply ih _ (fun w hw => hs w (List.mem_cons_of_mem _ hw))
    unfold moveOne
    by_cases he : v.path = dest dir base v
    · rw [if_pos he]; exact h
    · rw [if_neg he]; exact vols_rename h _ _ _ (hs v List.mem_cons_self)

theorem vols_renameSet {rd : Bytes → Option (Nat × Vol)} {paths : List Bytes} {ans : Bytes → Bool} {dir : Bytes} {fuel : Nat}
    {s : List Volume} {fs fs' : Dir} (h : Vols rd fs paths) (hs : ∀ v ∈ s, v.path ∈ paths)
    (h1 : renameSet ans dir fuel fs s = some fs') : Vols rd fs' paths := by
  rcases renameSet_cases h1 with ⟨h2, _⟩ | ⟨_, m, k, _, _, _, h3⟩
  · rw [h2]; exact h
  · rw [h3]; exact vols_moveAll s h hs

theorem vols_renameSets {rd : Bytes → Option (Nat × Vol)} {paths : List Bytes} {ans : Bytes → Bool} {dir : Bytes} {fuel : Nat}
    (l : List (List Volume)) : ∀ {fs fs' : Dir}, Vols rd fs paths → (∀ s ∈ l, ∀ v ∈ s, v.path ∈ paths) →
    renameSets ans dir fuel fs l = some fs' → Vols rd fs' paths := by
  induction l with
  | nil => intro fs fs' h _ h1; cases h1; exact h
  | cons s l ih =>
    intro fs fs' h hs h1
    rw [renameSets] at h1
    cases h2 : renameSet ans dir fuel fs s with
    | none => rw [h2] at h1; exact nomatch h1
    | some fs1 =>
      rw [h2] at h1
      exact ih (vols_renameSet h (hs s List.mem_cons_self) h2) (fun s hs' => hs s (List.mem_cons_of_mem _ hs')) h1

/- ## A directory, and all directories -/

theorem checkFile_some {rd : Bytes → Option (Nat × Vol)} {ignored : Bytes → Bool} {e : Bytes × Node} {v : Volume}
    (h : checkFile rd ignored e = some v) : v.path = e.1 ∧ ignored (baseName e.1) = false ∧
      ∃ d, e.2 = .file d ∧ rd d = some (v.version, v.vol) := by
  unfold checkFile at h
  cases h1 : e.2 with
  | dir t => rw [h1] at h; exact nomatch h
  | file d =>
    rw [h1] at h
    dsimp only at h
    cases h2 : ignored (baseName e.1) with
    | true => rw [h2, if_pos rfl] at h; exact nomatch h
    | false =>
      rw [h2, if_neg Bool.false_ne_true] at h
      cases h3 : rd d with
      | none => rw [h3] at h; exact nomatch h
      | some x =>
        rw [h3] at h
        cases h
        exact ⟨rfl, rfl, d, rfl, h3⟩

/-- What holds before and after each directory. -/
structure Inv (rd : Bytes → Option (Nat × Vol)) (ignored : Bytes → Bool) (st : Dir × List Volume) : Prop where
  plain : Plain st.1
  numbered : ∀ v ∈ st.2, Numbered v.vol
  ignored : ∀ v ∈ st.2, ignored (baseName v.path) = false
  vols : Vols rd st.1 (st.2.map (·.path))

theorem listing_length (fs : Dir) (dir : Bytes) : (listing fs dir).length ≤ fs.length := List.length_filter_le _ _

theorem listing_get {fs : Dir} {dir : Bytes} (h : (fs.map (·.1)).Nodup) {e : Bytes × Node} (he : e ∈ listing fs dir) :
    get fs e.1 = some e.2 := get_of_mem fs e.1 e.2 h (List.mem_filter.mp he).1

theorem check_step {rd : Bytes → Option (Nat × Vol)} {ignored ans : Bytes → Bool} {fuel : Nat} {st st' : Dir × List Volume}
    {dir : Bytes} (hrd : ∀ d x, rd d = some x → Numbered x.2) (hi : Inv rd ignored st)
    (hl : st.2.length + st.1.length < 2 ^ 32) (h : checkFiles rd ignored ans fuel st dir = some st') :
    Inv rd ignored st' ∧ List.Perm (st.1.map (·.2)) (st'.1.map (·.2)) ∧ st'.2.length ≤ st.2.length + st.1.length ∧
      ∀ p d, get st.1 p = some (.file d) → (rd d = none ∨ ignored (baseName p) = true) → get st'.1 p = some (.file d) := by
  unfold checkFiles at h
  dsimp only at h
  generalize hv : st.2 ++ (listing st.1 dir).filterMap (checkFile rd ignored) = vols at h
  have hlen : vols.length ≤ st.2.length + st.1.length := by
    rw [← hv, List.length_append]
    have h1 := listing_length st.1 dir
    have h2 : ((listing st.1 dir).filterMap (checkFile rd ignored)).length ≤ (listing st.1 dir).length := List.length_filterMap_le _ _
    omega
  have hnew : ∀ v ∈ vols, v ∈ st.2 ∨ ∃ d, get st.1 v.path = some (.file d) ∧ ignored (baseName v.path) = false ∧ rd d = some (v.version, v.vol) := by
    intro v hvv
    rw [← hv] at hvv
    rcases List.mem_append.mp hvv with h1 | h1
    · exact Or.inl h1
    · obtain ⟨e, he, hc⟩ := List.mem_filterMap.mp h1
      obtain ⟨a, b, d, c1, c2⟩ := checkFile_some hc
      refine Or.inr ⟨d, ?_, a ▸ b, c2⟩
      rw [a, listing_get hi.plain.names he, c1]
  have hnum : ∀ v ∈ vols, Numbered v.vol := by
    intro v hvv
    rcases hnew v hvv with h1 | ⟨d, _, _, h1⟩
    · exact hi.numbered v h1
    · exact hrd d _ h1
  have hign : ∀ v ∈ vols, ignored (baseName v.path) = false := by
    intro v hvv
    rcases hnew v hvv with h1 | ⟨d, _, h1, _⟩
    · exact hi.ignored v h1
    · exact h1
  have hvols : Vols rd st.1 (vols.map (·.path)) := by
    intro p hp d hd
    obtain ⟨v, hvv, he⟩ := List.mem_map.mp hp
    rcases hnew v hvv with h1 | ⟨d', h1, _, h2⟩
    · exact hi.vols p (he ▸ List.mem_map_of_mem h1) d hd
    · rw [he, hd] at h1
      cases h1
      rw [h2]
      exact fun h => nomatch h
  have hgood := sets_good (vols := vols) (by omega) hnum
  have hmem : ∀ s ∈ makeSets vols, ∀ v ∈ s, v ∈ vols := fun s hs => (sets_complete vols (by omega) s hs).2.1
  cases hr : renameSets ans dir fuel st.1 (makeSets vols) with
  | none => rw [hr] at h; exact nomatch h
  | some fs =>
    rw [hr] at h
    cases h
    obtain ⟨k1, k2, k3⟩ := renameSets_keeps (makeSets vols) hi.plain hgood hr
    refine ⟨⟨k1, hnum, hign, ?_⟩, k2, hlen, ?_⟩
    · exact vols_renameSets (makeSets vols) hvols (fun s hs v hvv => List.mem_map_of_mem (hmem s hs v hvv)) hr
    · intro p d hd hor
      rw [k3 p ?_ (by rw [hd]; exact fun h => nomatch h), hd]
      intro s hs v hvv he
      have hvm := hmem s hs v hvv
      rcases hor with h1 | h1
      · exact hvols p (he ▸ List.mem_map_of_mem hvm) d hd h1
      · rw [he, hign v hvm] at h1
        exact nomatch h1

theorem execute_keeps {rd : Bytes → Option (Nat × Vol)} {ignored ans : Bytes → Bool} {fuel : Nat}
    (hrd : ∀ d x, rd d = some x → Numbered x.2) (dirs : List Bytes) : ∀ {st st' : Dir × List Volume}, Inv rd ignored st →
    st.2.length + dirs.length * st.1.length < 2 ^ 32 → execute rd ignored ans fuel st dirs = some st' →
    Inv rd ignored st' ∧ List.Perm (st.1.map (·.2)) (st'.1.map (·.2)) ∧
      ∀ p d, get st.1 p = some (.file d) → (rd d = none ∨ ignored (baseName p) = true) → get st'.1 p = some (.file d) := by
  induction dirs with
  | nil => intro st st' hi _ h; cases h; exact ⟨hi, List.Perm.refl _, fun _ _ h _ => h⟩
  | cons dir dirs ih =>
    intro st st' hi hl h
    rw [List.length_cons, Nat.succ_mul] at hl
    rw [execute] at h
    cases h1 : checkFiles rd ignored ans fuel st dir with
    | none => rw [h1] at h; exact nomatch h
    | some st1 =>
      rw [h1] at h
      obtain ⟨a1, a2, a3, a4⟩ := check_step hrd hi (by omega) h1
      have hlen : st.1.length = st1.1.length := by
        have := a2.length_eq
        rwa [List.length_map, List.length_map] at this
      obtain ⟨b1, b2, b3⟩ := ih a1 (by rw [← hlen]; omega) h
      exact ⟨b1, a2.trans b2, fun p d hd ho => b3 p d (a4 p d hd ho) ho⟩

/- ## Theorems -/

/- **Nothing is lost**: after the renaming of the rar-files of a download there are the same contents under different
names. No file is overwritten, also if some files can not be renamed (`ans`). Volumes with names of the old style
have numbers up to 14200. -/
theorem rename_nothing_lost_partial (rd : Bytes → Option (Nat × Vol)) (ignored ans : Bytes → Bool) (fuel : Nat) (fs : Dir)
    (dirs : List Bytes) (hrd : ∀ d x, rd d = some x → x.2.newNaming = true ∨ x.2.volumeNo ≤ 14200)
    (hn : (fs.map (·.1)).Nodup) (hf : ∀ e ∈ fs, ∃ d, e.2 = .file d) (hl : dirs.length * fs.length < 2 ^ 32)
    (st : Dir × List Volume) (h : execute rd ignored ans fuel (fs, []) dirs = some st) :
    List.Perm (fs.map (·.2)) (st.1.map (·.2)) ∧ (st.1.map (·.1)).Nodup := by
  obtain ⟨h1, h2, _⟩ := execute_keeps hrd dirs (st := (fs, [])) ⟨⟨hn, hf⟩, fun v hv => (by cases hv), fun v hv => (by cases hv),
    fun p hp => (by cases hp)⟩ (by rw [List.length_nil, Nat.zero_add]; exact hl) h
  exact ⟨h2, h1.plain.names⟩

/- **Other files are not touched**: a file which is not a rar-volume, or whose extension is to be ignored, keeps its
name and contents. -/
theorem rename_others_untouched (rd : Bytes → Option (Nat × Vol)) (ignored ans : Bytes → Bool) (fuel : Nat) (fs : Dir)
    (dirs : List Bytes) (hrd : ∀ d x, rd d = some x → x.2.newNaming = true ∨ x.2.volumeNo ≤ 14200)
    (hn : (fs.map (·.1)).Nodup) (hf : ∀ e ∈ fs, ∃ d, e.2 = .file d) (hl : dirs.length * fs.length < 2 ^ 32)
    (st : Dir × List Volume) (h : execute rd ignored ans fuel (fs, []) dirs = some st)
    (p d : Bytes) (hp : get fs p = some (.file d)) (ho : rd d = none ∨ ignored (baseName p) = true) :
    get st.1 p = some (.file d) := by
  obtain ⟨_, _, h3⟩ := execute_keeps hrd dirs (st := (fs, [])) ⟨⟨hn, hf⟩, fun v hv => (by cases hv), fun v hv => (by cases hv),
    fun p hp => (by cases hp)⟩ (by rw [List.length_nil, Nat.zero_add]; exact hl) h
  exact h3 p d hp ho

end Verif.RarRename
