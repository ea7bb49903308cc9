import Verif.FilesProps
/-
What UnpackController::Cleanup does to files: what was extracted reaches the destination, only archives are
deleted, and only after everything was extracted and moved.
-/
namespace Verif.Files
open CStr FileName

/- Specification of names of archives -/

/-- The name ends with the text, in any case. -/
def EndsWith (n s : Bytes) : Prop := ∃ a e, n = a ++ e ∧ e.map WildMask.lower = s

/-- Archives by name and, for parts of old rar-sets, by content. -/
inductive ArchiveFile (n data : Bytes) : Prop
  | rar : EndsWith n (lit ".rar") → ArchiveFile n data
  | sevenZip : EndsWith n (lit ".7z") → ArchiveFile n data
  | sevenZipPart (a ds : Bytes) : n = a ++ ds → EndsWith a (lit ".7z.") → ds ≠ [] → (∀ c ∈ ds, 48 ≤ c ∧ c ≤ 57) →
      ArchiveFile n data
  | rarPart (a : Bytes) (c d1 d2 : UInt8) : n = a ++ [46, c, d1, d2] → 114 ≤ WildMask.lower c → WildMask.lower c ≤ 122 →
      (48 ≤ d1 ∧ d1 ≤ 57) → (48 ≤ d2 ∧ d2 ≤ 57) → rarSignature data = true → ArchiveFile n data

theorem lower_digit (c : UInt8) : digit (WildMask.lower c) = digit c := by
  have : ∀ i : Fin 256, digit (WildMask.lower (UInt8.ofNat i.val)) = digit (UInt8.ofNat i.val) := by decide +kernel
  have h := this ⟨c.toNat, UInt8.toNat_lt c⟩
  simpa using h

theorem lower_of_digit (c : UInt8) (h : digit c = true) : WildMask.lower c = c := by
  have : ∀ i : Fin 256, digit (UInt8.ofNat i.val) = true → WildMask.lower (UInt8.ofNat i.val) = UInt8.ofNat i.val := by
    decide +kernel
  have h2 := this ⟨c.toNat, UInt8.toNat_lt c⟩
  simp only [UInt8.ofNat_toNat] at h2
  exact h2 h

theorem lower_dot (c : UInt8) : WildMask.lower c = 46 ↔ c = 46 := by
  have : ∀ i : Fin 256, WildMask.lower (UInt8.ofNat i.val) = 46 ↔ UInt8.ofNat i.val = 46 := by decide +kernel
  have h2 := this ⟨c.toNat, UInt8.toNat_lt c⟩
  simpa only [UInt8.ofNat_toNat] using h2

theorem digit_iff (c : UInt8) : digit c = true ↔ 48 ≤ c ∧ c ≤ 57 := by simp [digit]

theorem endsWith_iff (n s : Bytes) : EndsWith n s ↔ s.isSuffixOf (n.map WildMask.lower) = true := by
  rw [List.isSuffixOf_iff_suffix]
  constructor
  · rintro ⟨a, e, rfl, rfl⟩
    rw [List.map_append]
    exact List.suffix_append _ _
  · rintro ⟨t, ht⟩
    obtain ⟨a, e, h1, h2, h3⟩ := List.map_eq_append_iff.mp ht.symm
    exact ⟨a, e, h1, h3⟩

theorem sevenZip_iff (n : Bytes) : isSevenZip n = true ↔
    EndsWith n (lit ".7z") ∨ ∃ a ds, n = a ++ ds ∧ EndsWith a (lit ".7z.") ∧ ds ≠ [] ∧ ∀ c ∈ ds, 48 ≤ c ∧ c ≤ 57 := by
  unfold isSevenZip
  dsimp only
  rw [Bool.or_eq_true, List.isPrefixOf_iff_prefix, List.reverse_prefix, ← List.isSuffixOf_iff_suffix, ← endsWith_iff]
  apply or_congr Iff.rfl
  rw [Bool.and_eq_true, List.isPrefixOf_iff_prefix]
  have key : ∀ (r : Bytes), ((!(r.takeWhile digit).isEmpty) = true ∧ (lit ".7z.").reverse <+: r.dropWhile digit) ↔
      ∃ ds a, r = ds ++ a ∧ (lit ".7z.").reverse <+: a ∧ ds ≠ [] ∧ ∀ c ∈ ds, digit c = true := by
    intro r
    constructor
    · rintro ⟨h1, h2⟩
      refine ⟨r.takeWhile digit, r.dropWhile digit, List.takeWhile_append_dropWhile.symm, h2, ?_, ?_⟩
      · intro h
        rw [h] at h1
        simp at h1
      · intro c hc
        exact List.all_takeWhile |> fun h => (List.all_eq_true.mp h) c hc
    · rintro ⟨ds, a, rfl, ⟨t, rfl⟩, h3, h4⟩
      have e1 : ((lit ".7z.").reverse ++ t) = 46 :: ((lit "z7.") ++ t) := rfl
      have ht : (ds ++ ((lit ".7z.").reverse ++ t)).takeWhile digit = ds := by
        rw [List.takeWhile_append_of_pos h4, e1, List.takeWhile_cons_of_neg (by decide), List.append_nil]
      have hd : (ds ++ ((lit ".7z.").reverse ++ t)).dropWhile digit = (lit ".7z.").reverse ++ t := by
        rw [List.dropWhile_append_of_pos h4, e1, List.dropWhile_cons_of_neg (by decide)]
      rw [ht, hd]
      refine ⟨?_, List.prefix_append _ _⟩
      cases ds with
      | nil => exact absurd rfl h3
      | cons => rfl
  rw [key]
  constructor
  · rintro ⟨ds, a, h1, h2, h3, h4⟩
    have h1' : n.map WildMask.lower = a.reverse ++ ds.reverse := by
      rw [← List.reverse_append, ← h1, List.reverse_reverse]
    obtain ⟨x, y, hn, hx, hy⟩ := List.map_eq_append_iff.mp h1'
    refine ⟨x, y, hn, ?_, ?_, ?_⟩
    · rw [endsWith_iff, hx, List.isSuffixOf_iff_suffix, ← List.reverse_prefix, List.reverse_reverse]
      exact h2
    · rintro rfl
      rw [List.map_nil] at hy
      exact h3 (List.reverse_eq_nil_iff.mp hy.symm)
    · intro c hc
      rw [← digit_iff, ← lower_digit]
      apply h4
      rw [← List.mem_reverse, ← hy]
      exact List.mem_map_of_mem hc
  · rintro ⟨a, ds, rfl, h2, h3, h4⟩
    refine ⟨ds.reverse, (a.map WildMask.lower).reverse, ?_, ?_, ?_, ?_⟩
    · have : ds.map WildMask.lower = ds := by
        conv => rhs; rw [← List.map_id ds]
        apply List.map_congr_left
        intro c hc
        exact lower_of_digit c ((digit_iff c).mpr (h4 c hc))
      rw [List.map_append, this, List.reverse_append]
    · rw [List.reverse_prefix, ← List.isSuffixOf_iff_suffix, ← endsWith_iff]
      exact h2
    · intro h
      exact h3 (List.reverse_eq_nil_iff.mp h)
    · intro c hc
      rw [digit_iff]
      exact h4 c (List.mem_reverse.mp hc)

theorem rarSeq_iff (n : Bytes) : isRarSeq n = true ↔ ∃ a c d1 d2, n = a ++ [46, c, d1, d2] ∧
    (114 ≤ WildMask.lower c ∧ WildMask.lower c ≤ 122) ∧ (48 ≤ d1 ∧ d1 ≤ 57) ∧ (48 ≤ d2 ∧ d2 ≤ 57) := by
  unfold isRarSeq
  rw [← List.map_reverse]
  constructor
  · intro h
    obtain ⟨r, hr⟩ : ∃ r, r = n.reverse := ⟨_, rfl⟩
    rw [← hr] at h
    have hn : n = r.reverse := by rw [hr, List.reverse_reverse]
    match r, h, hn with
    | a :: b :: c :: d :: t, h, hn =>
      simp only [List.map_cons, rarSeqRev, Bool.and_eq_true, lower_digit, decide_eq_true_eq, beq_iff_eq, lower_dot,
        digit_iff] at h
      refine ⟨t.reverse, c, b, a, ?_, h.1.2, h.1.1.2, h.1.1.1⟩
      rw [hn, h.2]
      simp
    | [], h, _ => simp [rarSeqRev] at h
    | [_], h, _ => simp [rarSeqRev] at h
    | [_, _], h, _ => simp [rarSeqRev] at h
    | [_, _, _], h, _ => simp [rarSeqRev] at h
  · rintro ⟨a, c, d1, d2, rfl, h1, h2, h3⟩
    simp only [List.reverse_append, List.reverse_cons, List.reverse_nil, List.nil_append, List.cons_append, List.map_cons,
      rarSeqRev, lower_digit, Bool.and_eq_true, decide_eq_true_eq, digit_iff]
    exact ⟨⟨⟨h3, h2⟩, h1⟩, by decide⟩

/-- What `archive` tests. -/
theorem archive_iff (c : Cfg) (ex : List Bytes) (n data : Bytes) :
    archive c ex (n, .file data) = true ↔ n ∉ ex ∧ (ArchiveFile n data ∨
      (c.split = true ∧ isSplit n = true ∧ n ∈ c.joined)) := by
  unfold archive
  dsimp only
  rw [Bool.and_eq_true, Bool.not_eq_true', ← Bool.not_eq_true, List.contains_iff_mem]
  apply and_congr Iff.rfl
  simp only [Bool.or_eq_true, Bool.and_eq_true, List.contains_iff_mem, sevenZip_iff, rarSeq_iff]
  have hr : isRar n = true ↔ EndsWith n (lit ".rar") := (endsWith_iff n _).symm
  rw [hr]
  constructor
  · rintro (((h | h | h) | h) | h)
    · exact Or.inl (.rar h)
    · exact Or.inl (.sevenZip h)
    · obtain ⟨a, ds, h1, h2, h3, h4⟩ := h
      exact Or.inl (.sevenZipPart a ds h1 h2 h3 h4)
    · obtain ⟨⟨a, x, d1, d2, h1, h2, h3, h4⟩, h5⟩ := h
      exact Or.inl (.rarPart a x d1 d2 h1 h2.1 h2.2 h3 h4 h5)
    · exact Or.inr ⟨h.1.1, h.1.2, h.2⟩
  · rintro (h | h)
    · cases h with
      | rar h => exact Or.inl (Or.inl (Or.inl h))
      | sevenZip h => exact Or.inl (Or.inl (Or.inr (Or.inl h)))
      | sevenZipPart a ds h1 h2 h3 h4 => exact Or.inl (Or.inl (Or.inr (Or.inr ⟨a, ds, h1, h2, h3, h4⟩)))
      | rarPart a x d1 d2 h1 h2 h2' h3 h4 h5 => exact Or.inl (Or.inr ⟨⟨a, x, d1, d2, h1, ⟨h2, h2'⟩, h3, h4⟩, h5⟩)
    · exact Or.inr ⟨⟨h.1, h.2.1⟩, h.2.2⟩

/- Names of a directory stay different. -/

def Names (d : Dir) : Prop := (d.map (·.1)).Nodup

instance (d : Dir) : Decidable (Names d) := by unfold Names; infer_instance

theorem names_del (d : Dir) (n : Bytes) (h : Names d) : Names (del d n) :=
  List.Sublist.nodup (List.Sublist.map _ List.filter_sublist) h

theorem names_put (d : Dir) (n : Bytes) (x : Node) (h : Names d) : Names (put d n x) := by
  unfold Names put
  rw [List.map_cons, List.nodup_cons]
  refine ⟨?_, names_del d n h⟩
  intro hm
  rw [List.mem_map] at hm
  obtain ⟨e, he, h2⟩ := hm
  unfold del at he
  rw [List.mem_filter] at he
  have h3 := he.2
  rw [h2] at h3
  simp at h3

theorem names_moveFile (a : Answer) (x : Node) (n m : Bytes) (src dst : Dir) (h : Names dst) :
    Names (moveFile a x n m src dst).2.2 := by
  unfold moveFile
  cases a with
  | error => exact h
  | done => dsimp only; split; exact names_put _ _ _ h; exact h
  | other i o k r =>
    dsimp only
    repeat' split
    all_goals first | exact h | exact names_put _ _ _ h

theorem names_clear (delOk : Bytes → Bool) (d : Dir) (m : Bytes) (h : Names d) : Names (clear delOk d m) := by
  unfold clear
  repeat' split
  all_goals first | exact h | exact names_del _ _ h

theorem names_loop (ans : Bytes → Answer) (delOk : Bytes → Bool) : ∀ (l : List (Bytes × Node)) (st : St),
    Names st.dst → Names (l.foldl (unpackStep ans delOk) st).dst := by
  intro l
  induction l with
  | nil => intro st h; exact h
  | cons e l ih =>
    intro st h
    rw [List.foldl_cons]
    exact ih _ (names_moveFile _ _ _ _ _ _ (names_clear _ _ _ h))

/- Only the target name changes. -/

theorem moveFile_other (a : Answer) (x : Node) (n m p : Bytes) (src dst : Dir) (h : m ≠ p) :
    get (moveFile a x n m src dst).2.2 p = get dst p := by
  have hp : ∀ y, get (put dst m y) p = get dst p := fun y => by rw [get_put', if_neg h]
  unfold moveFile
  cases a with
  | error => rfl
  | done => dsimp only; split; exact hp _; rfl
  | other i o k r =>
    dsimp only
    repeat' split
    all_goals first | rfl | exact hp _

theorem clear_other (delOk : Bytes → Bool) (d : Dir) (m p : Bytes) (h : m ≠ p) :
    get (clear delOk d m) p = get d p := by
  unfold clear
  repeat' split
  all_goals first | rfl | (rw [get_del, if_neg h])

theorem unpackStep_other (ans : Bytes → Answer) (delOk : Bytes → Bool) (st : St) (e : Bytes × Node) (p : Bytes)
    (h : makeValid false e.1 ≠ p) : get (unpackStep ans delOk st e).dst p = get st.dst p := by
  show get (moveFile _ _ _ _ _ _).2.2 p = _
  rw [moveFile_other _ _ _ _ _ _ _ h, clear_other _ _ _ _ h]

theorem unpackLoop_other (ans : Bytes → Answer) (delOk : Bytes → Bool) (p : Bytes) : ∀ (l : List (Bytes × Node)) (st : St),
    (∀ e ∈ l, makeValid false e.1 ≠ p) → get (l.foldl (unpackStep ans delOk) st).dst p = get st.dst p := by
  intro l
  induction l with
  | nil => intro st _; rfl
  | cons e l ih =>
    intro st h
    rw [List.foldl_cons, ih _ (fun f hf => h f (List.mem_cons_of_mem _ hf)),
      unpackStep_other _ _ _ _ _ (h e List.mem_cons_self)]

theorem unpackLoop_ok (ans : Bytes → Answer) (delOk : Bytes → Bool) : ∀ (l : List (Bytes × Node)) (st : St),
    (l.foldl (unpackStep ans delOk) st).ok = true → st.ok = true := by
  intro l
  induction l with
  | nil => intro st h; exact h
  | cons e l ih =>
    intro st h
    rw [List.foldl_cons] at h
    exact (after_ok _ _ _ (ih _ h)).1

/- Different names stay different if they are valid. -/
def ValidNames (d : Dir) : Prop := ∀ e ∈ d, makeValid false e.1 = e.1

theorem unpackLoop_arrived (ans : Bytes → Answer) (delOk : Bytes → Bool) (hc : ∀ n, Complete (ans n)) :
    ∀ (l : List (Bytes × Node)) (st : St), ValidNames l → Names l →
    (l.foldl (unpackStep ans delOk) st).ok = true → ∀ e ∈ l, Thing e.2 → hidden e.1 = false →
      get (l.foldl (unpackStep ans delOk) st).dst e.1 = some e.2 := by
  intro l
  induction l with
  | nil => intro st _ _ _ e he; cases he
  | cons e l ih =>
    intro st hv hn hok f hf hx hh
    rw [List.foldl_cons] at hok ⊢
    unfold Names at hn
    rw [List.map_cons, List.nodup_cons] at hn
    have hv2 : ValidNames l := fun g hg => hv g (List.mem_cons_of_mem _ hg)
    rcases List.mem_cons.mp hf with hf | hf
    · rw [hf] at hx hh ⊢
      have h1 := (after_ok _ _ _ (unpackLoop_ok ans delOk l _ hok)).2
      rw [hh] at h1
      rcases h1 with h1 | h1
      · rw [unpackLoop_other]
        · have := moveFile_done _ _ _ _ _ _ (hc e.1) hx h1
          rw [hv e List.mem_cons_self] at this
          show get (moveFile _ _ _ _ _ _).2.2 _ = _
          rw [hv e List.mem_cons_self]
          exact this
        · intro g hg heq
          rw [hv2 g hg] at heq
          exact hn.1 (List.mem_map.mpr ⟨g, hg, heq⟩)
      · exact absurd h1 (by simp)
    · exact ih _ hv2 hn.2 hok f hf hx hh

/- Every extracted file is still at its place or has arrived. -/
theorem unpackLoop_safe (ans : Bytes → Answer) (delOk : Bytes → Bool) (hc : ∀ n, Complete (ans n)) :
    ∀ (l : List (Bytes × Node)) (st : St), ValidNames l → Names l → (∀ e ∈ l, get st.src e.1 = some e.2) →
    ∀ e ∈ l, Thing e.2 →
      get (l.foldl (unpackStep ans delOk) st).src e.1 = some e.2 ∨
      get (l.foldl (unpackStep ans delOk) st).dst e.1 = some e.2 := by
  have hsrc : ∀ (n : Bytes) (l : List (Bytes × Node)) (st : St), (∀ e ∈ l, e.1 ≠ n) →
      get (l.foldl (unpackStep ans delOk) st).src n = get st.src n := by
    intro n l
    induction l with
    | nil => intro st _; rfl
    | cons e l ih =>
      intro st h
      rw [List.foldl_cons, ih _ (fun f hf => h f (List.mem_cons_of_mem _ hf))]
      show get (moveFile _ _ _ _ _ _).2.1 n = _
      rcases moveFile_src (ans e.1) e.2 e.1 (makeValid false e.1) st.src (clear delOk st.dst (makeValid false e.1)) with h1 | h1
      · rw [h1.2]
      · rw [h1.2, get_del, if_neg (h e List.mem_cons_self)]
  intro l
  induction l with
  | nil => intro st _ _ _ e he; cases he
  | cons e l ih =>
    intro st hv hn hs f hf hx
    rw [List.foldl_cons]
    unfold Names at hn
    rw [List.map_cons, List.nodup_cons] at hn
    have hv2 : ValidNames l := fun g hg => hv g (List.mem_cons_of_mem _ hg)
    have hne : ∀ g ∈ l, g.1 ≠ e.1 := fun g hg he => hn.1 (List.mem_map.mpr ⟨g, hg, he⟩)
    have h1 := moveFile_src (ans e.1) e.2 e.1 (makeValid false e.1) st.src (clear delOk st.dst (makeValid false e.1))
    rcases List.mem_cons.mp hf with hf | hf
    · rw [hf] at hx ⊢
      rcases h1 with h1 | h1
      · left
        rw [hsrc _ _ _ hne]
        show get (moveFile _ _ _ _ _ _).2.1 _ = _
        rw [h1.2]
        exact hs e List.mem_cons_self
      · right
        rw [unpackLoop_other _ _ _ _ _ (fun g hg => by rw [hv2 g hg]; exact hne g hg)]
        have := moveFile_done _ _ _ _ _ _ (hc e.1) hx h1.1
        show get (moveFile _ _ _ _ _ _).2.2 _ = _
        rw [hv e List.mem_cons_self] at this ⊢
        exact this
    · apply ih _ hv2 hn.2 _ f hf hx
      intro g hg
      show get (moveFile _ _ _ _ _ _).2.1 _ = _
      rcases h1 with h1 | h1
      · rw [h1.2]
        exact hs g (List.mem_cons_of_mem _ hg)
      · rw [h1.2, get_del, if_neg (fun h => hne g hg h.symm)]
        exact hs g (List.mem_cons_of_mem _ hg)

/- The deletion of archives -/

theorem deleteArchives_get (c : Cfg) (delOk : Bytes → Bool) (ex : List Bytes) (d : Dir) (m : Bytes) (hd : Names d) :
    get (deleteArchives c delOk ex d) m = match get d m with
      | some x => if archive c ex (m, x) = true ∧ delOk m = true then none else some x
      | none => none := by
  unfold deleteArchives
  rw [get_filter _ d m hd]
  cases get d m with
  | none => rfl
  | some x =>
    dsimp only
    by_cases h : archive c ex (m, x) = true ∧ delOk m = true
    · rw [if_pos h, if_neg (by simp [h.1, h.2])]
    · rw [if_neg h, if_pos]
      rw [Bool.not_eq_true', ← Bool.not_eq_true, Bool.and_eq_true]
      exact h

/-- The directory for extracted files. -/
def target (c : Cfg) (r : Res) : Dir := if c.useFinal then r.final else r.dest

/-- **If unpacking failed nothing changes** in the directory of the download and in the final directory. -/
theorem unpack_failed_keeps (c : Cfg) (ans : Bytes → Answer) (delOk stuck : Bytes → Bool) (unpack dest final : Dir)
    (h : c.unpackOk = false) :
    (unpackCleanup c ans delOk stuck unpack dest final).dest = dest ∧
    (unpackCleanup c ans delOk stuck unpack dest final).final = final := by
  unfold unpackCleanup
  dsimp only
  rw [h]
  simp only [Bool.false_and]
  cases c.useFinal <;> exact ⟨rfl, rfl⟩

/-- **Everything extracted reaches the destination and is not deleted as an archive**, as far as the names are
valid, files with a leading dot are left out and copies between devices are complete. -/
theorem extracted_arrive_partial (c : Cfg) (ans : Bytes → Answer) (hc : ∀ n, Complete (ans n)) (delOk stuck : Bytes → Bool)
    (unpack dest final : Dir) (hv : ValidNames unpack) (hn : Names unpack) (hd : Names dest)
    (hu : c.unpackOk = true) (hok : (unpackCleanup c ans delOk stuck unpack dest final).ok = true)
    (n : Bytes) (x : Node) (hm : (n, x) ∈ unpack) (hx : Thing x) (hh : n.head? ≠ some 46) :
    get (target c (unpackCleanup c ans delOk stuck unpack dest final)) n = some x := by
  have hh := hidden_iff.mpr hh
  have hok2 : (unpack.foldl (unpackStep ans delOk) ⟨true, unpack, if c.useFinal then final else dest⟩).ok = true := by
    unfold unpackCleanup at hok
    dsimp only at hok
    rw [hu, if_pos rfl] at hok
    exact hok
  have h := unpackLoop_arrived ans delOk hc unpack _ hv hn hok2 (n, x) hm hx hh
  unfold target unpackCleanup
  dsimp only
  rw [hu, if_pos rfl, if_pos rfl]
  cases hf : c.useFinal with
  | true =>
    rw [if_pos rfl]
    rw [hf] at h
    exact h
  | false =>
    rw [hf] at h hok2
    rw [if_neg Bool.false_ne_true] at h hok2 ⊢
    rw [if_neg Bool.false_ne_true, if_neg Bool.false_ne_true]
    split
    · rw [deleteArchives_get _ _ _ _ _ (names_loop ans delOk unpack _ hd), h]
      dsimp only
      rw [if_neg]
      rintro ⟨ha, _⟩
      cases x with
      | dir t => simp [archive] at ha
      | file data =>
        exact ((archive_iff c _ n data).mp ha).1 (List.mem_map.mpr ⟨_, hm, rfl⟩)
    · exact h

/-- **Files which are no archives and are not replaced by an extracted file stay.** -/
theorem other_files_stay (c : Cfg) (ans : Bytes → Answer) (delOk stuck : Bytes → Bool)
    (unpack dest final : Dir) (hd : Names dest) (m : Bytes) (y : Node)
    (hy : get dest m = some y) (hne : ∀ e ∈ unpack, makeValid false e.1 ≠ m)
    (ha : ∀ data, y = .file data → ¬ ArchiveFile m data ∧ m ∉ c.joined) :
    get (unpackCleanup c ans delOk stuck unpack dest final).dest m = some y := by
  have hdel : ∀ d ex, Names d → get d m = some y → get (deleteArchives c delOk ex d) m = some y := by
    intro d ex hn hg
    rw [deleteArchives_get _ _ _ _ _ hn, hg]
    dsimp only
    rw [if_neg]
    rintro ⟨h1, _⟩
    cases y with
    | dir t => simp [archive] at h1
    | file data =>
      rcases ((archive_iff c _ m data).mp h1).2 with h2 | h2
      · exact (ha data rfl).1 h2
      · exact (ha data rfl).2 h2.2.2
  unfold unpackCleanup
  dsimp only
  cases hu : c.unpackOk with
  | false =>
    simp only [Bool.false_and]
    cases c.useFinal <;> exact hy
  | true =>
    simp only [if_true]
    have h1 : get (if c.useFinal = true then dest else (unpack.foldl (unpackStep ans delOk)
        ⟨true, unpack, if c.useFinal then final else dest⟩).dst) m = some y := by
      cases hf : c.useFinal with
      | true => rw [if_pos rfl]; exact hy
      | false =>
        rw [if_neg Bool.false_ne_true, if_neg Bool.false_ne_true, unpackLoop_other _ _ _ _ _ hne]
        exact hy
    have h2 : Names (if c.useFinal = true then dest else (unpack.foldl (unpackStep ans delOk)
        ⟨true, unpack, if c.useFinal then final else dest⟩).dst) := by
      cases hf : c.useFinal with
      | true => rw [if_pos rfl]; exact hd
      | false =>
        rw [if_neg Bool.false_ne_true, if_neg Bool.false_ne_true]
        exact names_loop _ _ _ _ hd
    have key : ∀ (b : Bool) ex d, Names d → get d m = some y →
        get (if b = true then deleteArchives c delOk ex d else d) m = some y := by
      intro b ex d hn hg
      cases b with
      | true => exact hdel _ _ hn hg
      | false => exact hg
    exact key _ _ _ h2 h1

/-- **Archives are deleted only if everything was unpacked and moved, and only if the option says so.** -/
theorem archives_stay (c : Cfg) (ans : Bytes → Answer) (delOk stuck : Bytes → Bool)
    (unpack dest final : Dir) (m : Bytes) (hne : ∀ e ∈ unpack, makeValid false e.1 ≠ m)
    (h : (unpackCleanup c ans delOk stuck unpack dest final).ok = false ∨ c.cleanupDisk = false) :
    get (unpackCleanup c ans delOk stuck unpack dest final).dest m = get dest m := by
  unfold unpackCleanup at h ⊢
  dsimp only at h ⊢
  rw [if_neg]
  · cases hf : c.useFinal with
    | true => rw [if_pos rfl]
    | false =>
      rw [if_neg Bool.false_ne_true, if_neg Bool.false_ne_true]
      split
      · rw [unpackLoop_other _ _ _ _ _ hne]
      · rfl
  · intro h2
    rw [Bool.and_eq_true, Bool.and_eq_true] at h2
    rcases h with h | h
    · rw [h2.1.2] at h
      exact Bool.noConfusion h
    · rw [h2.2] at h
      exact Bool.noConfusion h

/-- **After a successful unpack no archive is left**, except those which were extracted. -/
theorem archives_deleted (c : Cfg) (ans : Bytes → Answer) (stuck : Bytes → Bool)
    (unpack dest final : Dir) (hd : Names dest) (hu : c.unpackOk = true) (hcl : c.cleanupDisk = true)
    (hok : (unpackCleanup c ans (fun _ => true) stuck unpack dest final).ok = true) (m data : Bytes)
    (hg : get (unpackCleanup c ans (fun _ => true) stuck unpack dest final).dest m = some (.file data))
    (ha : ArchiveFile m data) : ∃ x, (m, x) ∈ unpack := by
  unfold unpackCleanup at hok hg
  dsimp only at hok hg
  rw [hu, hcl] at hg
  rw [hu] at hok
  simp only [if_true, Bool.true_and, Bool.and_true] at hok hg
  rw [hok, if_pos rfl] at hg
  have h2 : Names (if c.useFinal = true then dest else (unpack.foldl (unpackStep ans (fun _ => true))
        ⟨true, unpack, if c.useFinal then final else dest⟩).dst) := by
    cases hf : c.useFinal with
    | true => rw [if_pos rfl]; exact hd
    | false =>
      rw [if_neg Bool.false_ne_true, if_neg Bool.false_ne_true]
      exact names_loop _ _ _ _ hd
  rw [deleteArchives_get _ _ _ _ _ h2] at hg
  split at hg
  next x _ =>
    split at hg
    · cases hg
    next h =>
      have hx : x = .file data := by injection hg
      rw [hx] at h
      by_cases hm : m ∈ unpack.map (·.1)
      · obtain ⟨e, he, h3⟩ := List.mem_map.mp hm
        exact ⟨e.2, h3 ▸ he⟩
      · exact absurd ⟨(archive_iff c _ m data).mpr ⟨hm, Or.inl ha⟩, rfl⟩ h
  next => cases hg

/-- **If moving fails nothing extracted is lost**: it is in the directory of unpacked files or at the
destination. -/
theorem extracted_safe_partial (c : Cfg) (ans : Bytes → Answer) (hc : ∀ n, Complete (ans n)) (delOk stuck : Bytes → Bool)
    (unpack dest final : Dir) (hv : ValidNames unpack) (hn : Names unpack)
    (hok : (unpackCleanup c ans delOk stuck unpack dest final).ok = false)
    (n : Bytes) (x : Node) (hm : (n, x) ∈ unpack) (hx : Thing x) :
    get (unpackCleanup c ans delOk stuck unpack dest final).unpack n = some x ∨
    get (target c (unpackCleanup c ans delOk stuck unpack dest final)) n = some x := by
  cases hu : c.unpackOk with
  | false =>
    unfold unpackCleanup at hok
    dsimp only at hok
    rw [hu] at hok
    exact Bool.noConfusion hok
  | true =>
    have hok2 : (unpack.foldl (unpackStep ans delOk) ⟨true, unpack, if c.useFinal then final else dest⟩).ok = false := by
      unfold unpackCleanup at hok
      dsimp only at hok
      rw [hu, if_pos rfl] at hok
      exact hok
    have h := unpackLoop_safe ans delOk hc unpack ⟨true, unpack, if c.useFinal then final else dest⟩ hv hn
      (fun e he => get_of_mem unpack e.1 e.2 hn he) (n, x) hm hx
    unfold target unpackCleanup
    dsimp only
    rw [hu, if_pos rfl, hok2]
    simp only [Bool.and_false, Bool.false_and]
    cases hf : c.useFinal with
    | true =>
      rw [hf] at h
      exact h
    | false =>
      rw [hf] at h
      exact h

/- A download with two archives, a text and an extracted archive. -/
example : unpackCleanup ⟨true, true, false, [], false⟩ (fun _ => .done) (fun _ => true) (fun _ => false)
    [(lit "film.mkv", .file [1, 2]), (lit "subs.rar", .file [3])]
    [(lit "x.part1.RAR", .file [4]), (lit "x.7z.001", .file [5]), (lit "x.txt", .file [6])] [] =
    ⟨true, [], [(lit "subs.rar", .file [3]), (lit "film.mkv", .file [1, 2]), (lit "x.txt", .file [6])], []⟩ := by
  decide +kernel

example : ValidNames [(lit "film.mkv", .file [1, 2]), (lit "subs.rar", .file [3])] := by
  unfold ValidNames; decide +kernel

example : ArchiveFile (lit "x.part1.RAR") [4] := .rar ⟨lit "x.part1", lit ".RAR", by decide, by decide⟩

/- The second file can not be moved: archives stay. -/
example : unpackCleanup ⟨true, true, false, [], false⟩ (fun n => if n = lit "b" then .error else .done) (fun _ => true)
    (fun _ => false) [(lit "a", .file [1]), (lit "b", .file [2])] [(lit "x.rar", .file [4])] [] =
    ⟨false, [(lit "b", .file [2])], [(lit "a", .file [1]), (lit "x.rar", .file [4])], []⟩ := by
  decide +kernel

/- **An extracted archive with a reserved character in its name is deleted**: the name is compared before it
was made valid. Unpacking is reported as a success. -/
theorem extracted_archive_lost (data : Bytes) :
    unpackCleanup ⟨true, true, false, [], false⟩ (fun _ => .done) (fun _ => true) (fun _ => false)
      [(lit "Part 1: x.rar", .file data)] [] [] = ⟨true, [], [], []⟩ := by
  have hv : makeValid false (lit "Part 1: x.rar") = lit "Part 1_ x.rar" := by decide +kernel
  have h1 : isRar (lit "Part 1_ x.rar") = true := by decide +kernel
  simp [unpackCleanup, unpackStep, after, moveFile, clear, get, renameOk, put, del, deleteArchives, archive, hv, h1]
  decide +kernel

/- **Two extracted files whose names become equal overwrite each other.** -/
theorem extracted_names_collide (a b : Bytes) :
    unpackCleanup ⟨true, true, false, [], false⟩ (fun _ => .done) (fun _ => true) (fun _ => false)
      [(lit "who?", .file a), (lit "who:", .file b)] [] [] = ⟨true, [], [(lit "who_", .file b)], []⟩ := by
  have hv : makeValid false (lit "who?") = lit "who_" := by decide +kernel
  have hv2 : makeValid false (lit "who:") = lit "who_" := by decide +kernel
  have h1 : isRar (lit "who_") = false := by decide +kernel
  have h2 : isSevenZip (lit "who_") = false := by decide +kernel
  have h3 : isRarSeq (lit "who_") = false := by decide +kernel
  have h4 : lit "who?" ≠ lit "who:" := by decide +kernel
  simp [unpackCleanup, unpackStep, after, moveFile, clear, get, renameOk, put, del, deleteArchives, archive, hv, hv2, h1, h2,
    h3, removable]

/- **A file of the download is deleted before the extracted file is moved**; if the move fails it is lost. -/
theorem replaced_file_lost (old new : Bytes) :
    unpackCleanup ⟨true, true, false, [], false⟩ (fun _ => .error) (fun _ => true) (fun _ => false)
      [(lit "a", .file new)] [(lit "a", .file old)] [] = ⟨false, [(lit "a", .file new)], [], []⟩ := by
  have hv : makeValid false (lit "a") = lit "a" := by decide +kernel
  have hh : hidden (lit "a") = false := by decide +kernel
  simp [unpackCleanup, unpackStep, after, moveFile, clear, get, del, hv, hh, removable]

end Verif.Files
