import Verif.Files
import Verif.FileNameProps
/-
What happens to files when a download is moved to its destination and when unpacked files replace archives.
-/
namespace Verif.Files
open CStr FileName

/- Directories -/

theorem get_put (d : Dir) (n m : Bytes) (x : Node) : get (put d n x) m = if n = m then some x else get (del d n) m := rfl

theorem get_del (d : Dir) (n m : Bytes) : get (del d n) m = if n = m then none else get d m := by
  induction d with
  | nil => simp [del, get]
  | cons e d ih =>
    unfold del at ih ⊢
    rw [List.filter_cons]
    by_cases h : e.1 = n
    · rw [if_neg (by simp [h]), ih]
      by_cases h2 : n = m
      · rw [if_pos h2, if_pos h2]
      · rw [if_neg h2, if_neg h2, get, if_neg (by rw [h]; exact h2)]
    · rw [if_pos (by simp [h])]
      by_cases h2 : e.1 = m
      · rw [get, if_pos h2, if_neg (by intro h3; exact h (h2.trans h3.symm)), get, if_pos h2]
      · rw [get, if_neg h2, ih, get, if_neg h2]

theorem get_put' (d : Dir) (n m : Bytes) (x : Node) : get (put d n x) m = if n = m then some x else get d m := by
  rw [get_put, get_del]
  by_cases h : n = m
  · rw [if_pos h, if_pos h]
  · rw [if_neg h, if_neg h, if_neg h]

theorem get_mem (d : Dir) (n : Bytes) (x : Node) (h : get d n = some x) : (n, x) ∈ d := by
  induction d with
  | nil => simp [get] at h
  | cons e d ih =>
    rw [get] at h
    by_cases h2 : e.1 = n
    · rw [if_pos h2] at h
      cases h
      rw [← h2]
      exact List.mem_cons_self
    · rw [if_neg h2] at h
      exact List.mem_cons_of_mem _ (ih h)

theorem get_of_mem (d : Dir) (n : Bytes) (x : Node) (hd : (d.map (·.1)).Nodup) (h : (n, x) ∈ d) :
    get d n = some x := by
  induction d with
  | nil => cases h
  | cons e d ih =>
    rw [List.map_cons, List.nodup_cons] at hd
    rw [get]
    rcases List.mem_cons.mp h with h1 | h1
    · rw [← h1, if_pos rfl]
    · rw [if_neg, ih hd.2 h1]
      intro h2
      apply hd.1
      rw [h2]
      exact List.mem_map.mpr ⟨(n, x), h1, rfl⟩

/- Filtering keeps or removes an entry as a whole if the names are different. -/
theorem get_filter (p : Bytes × Node → Bool) (d : Dir) (n : Bytes) (hd : (d.map (·.1)).Nodup) :
    get (d.filter p) n = (match get d n with
      | some x => if p (n, x) then some x else none
      | none => none) := by
  induction d with
  | nil => rfl
  | cons e d ih =>
    rw [List.map_cons, List.nodup_cons] at hd
    have ih := ih hd.2
    rw [List.filter_cons]
    by_cases h : e.1 = n
    · have hno : get d n = none := by
        cases hg : get d n with
        | none => rfl
        | some x => exact absurd (List.mem_map.mpr ⟨(n, x), get_mem d n x hg, h.symm⟩) hd.1
      rw [hno] at ih
      have he : e = (n, e.2) := by rw [← h]
      rw [get, if_pos h]
      by_cases hp : p e = true
      · rw [if_pos hp, get, if_pos h]
        dsimp only
        rw [← he, if_pos hp]
      · rw [if_neg hp, ih]
        dsimp only
        rw [← he, if_neg hp]
    · rw [get, if_neg h]
      by_cases hp : p e = true
      · rw [if_pos hp, get, if_neg h, ih]
      · rw [if_neg hp, ih]

theorem numbered_inj (base : Bytes) {a b : Nat} (h : numbered base (a + 1) = numbered base (b + 1)) : a = b := by
  unfold numbered at h
  rw [if_neg (by omega), if_neg (by omega)] at h
  have := dupName_inj base h
  omega

theorem isFile_iff (o : Option Node) : isFile o = true ↔ ∃ d, o = some (.file d) := by
  cases o with
  | none => simp [isFile]
  | some x => cases x <;> simp [isFile]

theorem unique_from (d : Dir) (base : Bytes) : ∀ (f k : Nat), ∃ i, k ≤ i ∧ i ≤ k + f ∧
    unique d base f k = numbered base i ∧ (∀ j, k ≤ j → j < i → isFile (get d (numbered base j)) = true) ∧
    (i < k + f → isFile (get d (numbered base i)) = false) := by
  intro f
  induction f with
  | zero =>
    intro k
    exact ⟨k, Nat.le_refl _, Nat.le_refl _, rfl, fun j h1 h2 => absurd h2 (by omega), fun h => absurd h (by omega)⟩
  | succ f ih =>
    intro k
    rw [unique]
    cases h : isFile (get d (numbered base k)) with
    | true =>
      rw [if_pos rfl]
      obtain ⟨i, h1, h2, h3, h4, h5⟩ := ih (k + 1)
      refine ⟨i, by omega, by omega, h3, ?_, fun hi => h5 (by omega)⟩
      intro j hj hji
      by_cases hk : j = k
      · rw [hk]; exact h
      · exact h4 j (by omega) hji
    | false =>
      rw [if_neg (by simp)]
      exact ⟨k, Nat.le_refl _, by omega, rfl, fun j h1 h2 => absurd h2 (by omega), fun _ => h⟩

/-- MakeUniqueFilename finds a name which no file has. -/
theorem uniqueName_free (d : Dir) (base : Bytes) :
    (∃ i, uniqueName d base = numbered base i) ∧ isFile (get d (uniqueName d base)) = false := by
  obtain ⟨i, _, h2, h3, h4, h5⟩ := unique_from d base (d.length + 1) 0
  unfold uniqueName
  rw [h3]
  refine ⟨⟨i, rfl⟩, ?_⟩
  by_cases hi : i < d.length + 1
  · exact h5 (by omega)
  · cases hf : isFile (get d (numbered base i)) with
    | false => rfl
    | true =>
      have hmem : ∀ j, j ≤ i → numbered base j ∈ d.map (·.1) := by
        intro j hj
        have : isFile (get d (numbered base j)) = true := by
          by_cases hji : j = i
          · rw [hji]; exact hf
          · exact h4 j (by omega) (by omega)
        obtain ⟨x, hx⟩ := (isFile_iff _).mp this
        exact List.mem_map.mpr ⟨_, get_mem d _ _ hx, rfl⟩
      have hl := nodup_subset_length ((List.range i).map (fun j => numbered base (j + 1))) (d.map (·.1))
        (by
          refine List.Pairwise.map (R := fun a b => a ≠ b) _ ?_ List.nodup_range
          intro a b hab h
          exact hab (numbered_inj base h))
        (by
          intro x hx
          rw [List.mem_map] at hx
          obtain ⟨j, hj, rfl⟩ := hx
          rw [List.mem_range] at hj
          exact hmem (j + 1) (by omega))
      rw [List.length_map, List.length_range, List.length_map] at hl
      omega

/- What the statements talk about -/

/-- Something that can be lost: a file, or a directory with something in it. -/
def Thing (x : Node) : Prop := x ≠ .dir 0

/-- Everything which was in the directory is still there, under the same name. -/
def Kept (d d' : Dir) : Prop := ∀ m x, Thing x → get d m = some x → get d' m = some x

/-- The directory has this content under the name of the source, made valid, possibly with a number. -/
def Arrived (d : Dir) (n : Bytes) (x : Node) : Prop :=
  ∃ k, get d (numbered (makeValid false n) k) = some x

/-- A copy to another device is complete. -/
def Complete : Answer → Prop
  | .other _ _ (some _) _ => False
  | _ => True

instance (a : Answer) : Decidable (Complete a) := by
  unfold Complete; split <;> infer_instance

theorem Kept.refl (d : Dir) : Kept d d := fun _ _ _ h => h
theorem Kept.trans {a b c : Dir} (h : Kept a b) (h2 : Kept b c) : Kept a c := fun m x t e => h2 m x t (h m x t e)

/- A place which holds nothing may be used. -/
theorem put_kept (d : Dir) (m : Bytes) (x : Node) (h : ∀ y, get d m = some y → y = .dir 0) : Kept d (put d m x) := by
  intro m' y ty hy
  rw [get_put']
  by_cases hm : m = m'
  · rw [← hm] at hy
    exact absurd (h y hy) ty
  · rw [if_neg hm, hy]

/- MoveFile to a name without a file. -/
theorem moveFile_kept (a : Answer) (x : Node) (n m : Bytes) (src dst : Dir) (hm : isFile (get dst m) = false) :
    Kept dst (moveFile a x n m src dst).2.2 := by
  unfold moveFile
  cases a with
  | error => exact Kept.refl _
  | done =>
    dsimp only
    cases hr : renameOk (get dst m) x with
    | false => rw [if_neg (by simp)]; exact Kept.refl _
    | true =>
      rw [if_pos rfl]
      apply put_kept
      intro y hy
      rw [hy] at hr hm
      cases y with
      | file d => simp [isFile] at hm
      | dir t =>
        cases x with
        | file d => simp [renameOk] at hr
        | dir u => simp [renameOk] at hr; rw [hr]
  | other i o k r =>
    dsimp only
    cases i with
    | false => exact Kept.refl _
    | true =>
      rw [if_neg (by simp)]
      by_cases hd : (!o || isDir (get dst m)) = true
      · rw [if_pos hd]; exact Kept.refl _
      · rw [if_neg hd]
        have hk : Kept dst (put dst m (.file (copied x k))) := by
          apply put_kept
          intro y hy
          rw [hy] at hm hd
          cases y with
          | file d => simp [isFile] at hm
          | dir t => simp [isDir] at hd
        split <;> exact hk

/- Sources other than the moved one stay. -/
theorem moveFile_src (a : Answer) (x : Node) (n m : Bytes) (src dst : Dir) :
    ((moveFile a x n m src dst).1 = false ∧ (moveFile a x n m src dst).2.1 = src) ∨
    ((moveFile a x n m src dst).1 = true ∧ (moveFile a x n m src dst).2.1 = del src n) := by
  unfold moveFile
  cases a with
  | error => exact Or.inl ⟨rfl, rfl⟩
  | done =>
    dsimp only
    split
    · exact Or.inr ⟨rfl, rfl⟩
    · exact Or.inl ⟨rfl, rfl⟩
  | other i o k r =>
    dsimp only
    repeat' split
    all_goals first | exact Or.inl ⟨rfl, rfl⟩ | exact Or.inr ⟨rfl, rfl⟩

/- If a complete move reports success, the content is at the new place. -/
theorem moveFile_done (a : Answer) (x : Node) (n m : Bytes) (src dst : Dir) (ha : Complete a) (hx : Thing x)
    (h : (moveFile a x n m src dst).1 = true) : get (moveFile a x n m src dst).2.2 m = some x := by
  unfold moveFile at h ⊢
  cases a with
  | error => simp at h
  | done =>
    dsimp only at h ⊢
    split at h
    next hr => rw [if_pos hr, get_put', if_pos rfl]
    next => simp at h
  | other i o k r =>
    cases k with
    | some k => exact absurd ha (by simp [Complete])
    | none =>
      dsimp only at h ⊢
      cases i with
      | false => simp at h
      | true =>
        rw [if_neg (by simp)] at h ⊢
        split at h
        next => simp at h
        next hd =>
          rw [if_neg hd]
          split at h
          next hr =>
            rw [if_pos hr, get_put', if_pos rfl]
            cases x with
            | file d => rfl
            | dir t =>
              simp only [removable, Bool.and_eq_true, beq_iff_eq] at hr
              exact absurd (by rw [hr.2]) hx
          next => simp at h

/- The loop of MoveFiles -/

theorem moveStep_kept (ans : Bytes → Answer) (st : St) (e : Bytes × Node) : Kept st.dst (moveStep ans st e).dst :=
  moveFile_kept _ _ _ _ _ _ (uniqueName_free _ _).2

theorem loop_kept (ans : Bytes → Answer) : ∀ (l : List (Bytes × Node)) (st : St),
    Kept st.dst (l.foldl (moveStep ans) st).dst := by
  intro l
  induction l with
  | nil => intro st; exact Kept.refl _
  | cons e l ih =>
    intro st
    rw [List.foldl_cons]
    exact (moveStep_kept ans st e).trans (ih _)

theorem after_ok (st : St) (n : Bytes) (r : Bool × Dir × Dir) (h : (after st n r).ok = true) :
    st.ok = true ∧ (r.1 = true ∨ hidden n = true) := by
  simpa [after] using h

theorem loop_ok (ans : Bytes → Answer) : ∀ (l : List (Bytes × Node)) (st : St),
    (l.foldl (moveStep ans) st).ok = true → st.ok = true := by
  intro l
  induction l with
  | nil => intro st h; exact h
  | cons e l ih =>
    intro st h
    rw [List.foldl_cons] at h
    exact (after_ok _ _ _ (ih _ h)).1

/- Every entry is still at its place or has arrived. -/
theorem loop_safe (ans : Bytes → Answer) (hc : ∀ n, Complete (ans n)) : ∀ (l : List (Bytes × Node)) (st : St) (n : Bytes)
    (x : Node), Thing x → ((l.map (·.1)).Nodup) → (∀ e ∈ l, get st.src e.1 = some e.2) →
    get st.src n = some x ∨ Arrived st.dst n x →
    get (l.foldl (moveStep ans) st).src n = some x ∨ Arrived (l.foldl (moveStep ans) st).dst n x := by
  intro l
  induction l with
  | nil => intro st n x _ _ _ h; exact h
  | cons e l ih =>
    intro st n x hx hn hs h
    rw [List.map_cons, List.nodup_cons] at hn
    rw [List.foldl_cons]
    have hsrc := moveFile_src (ans e.1) e.2 e.1 (uniqueName st.dst (makeValid false e.1)) st.src st.dst
    apply ih _ n x hx hn.2
    · intro f hf
      have hf1 := hs f (List.mem_cons_of_mem _ hf)
      show get (moveFile _ _ _ _ _ _).2.1 f.1 = some f.2
      rcases hsrc with h1 | h1
      · rw [h1.2, hf1]
      · rw [h1.2, get_del, if_neg, hf1]
        intro he
        exact hn.1 (List.mem_map.mpr ⟨f, hf, he.symm⟩)
    · rcases h with h | ⟨k, h⟩
      · show get (moveFile _ _ _ _ _ _).2.1 n = some x ∨ _
        rcases hsrc with h1 | h1
        · rw [h1.2]; exact Or.inl h
        · by_cases he : e.1 = n
          · right
            have := hs e List.mem_cons_self
            rw [he, h] at this
            have hxe : x = e.2 := by injection this
            obtain ⟨⟨i, hi⟩, _⟩ := uniqueName_free st.dst (makeValid false e.1)
            refine ⟨i, ?_⟩
            rw [← he, ← hi]
            show get (moveFile _ _ _ _ _ _).2.2 _ = some x
            rw [hxe]
            exact moveFile_done _ _ _ _ _ _ (hc _) (hxe ▸ hx) h1.1
          · left
            rw [h1.2, get_del, if_neg he, h]
      · exact Or.inr ⟨k, moveStep_kept ans st e _ _ hx h⟩

/- A move which is not hidden and is not reported as failed has arrived. -/
theorem loop_arrived (ans : Bytes → Answer) (hc : ∀ n, Complete (ans n)) : ∀ (l : List (Bytes × Node)) (st : St),
    (l.foldl (moveStep ans) st).ok = true → ∀ e ∈ l, Thing e.2 → hidden e.1 = false →
      Arrived (l.foldl (moveStep ans) st).dst e.1 e.2 := by
  intro l
  induction l with
  | nil => intro st _ e he; cases he
  | cons e l ih =>
    intro st hok f hf hx hh
    rw [List.foldl_cons] at hok ⊢
    rcases List.mem_cons.mp hf with hf | hf
    · rw [hf] at hx hh ⊢
      have h1 := (after_ok _ _ _ (loop_ok ans l _ hok)).2
      rw [hh] at h1
      rcases h1 with h1 | h1
      · obtain ⟨⟨i, hi⟩, _⟩ := uniqueName_free st.dst (makeValid false e.1)
        refine ⟨i, loop_kept ans l _ _ _ hx ?_⟩
        rw [← hi]
        exact moveFile_done _ _ _ _ _ _ (hc _) hx h1
      · exact absurd h1 (by simp)
    · exact ih _ hok f hf hx hh

/-- **Nothing in the destination is overwritten** when a download is moved there, whatever happens. -/
theorem move_overwrites_nothing (ans : Bytes → Answer) (stuck : Bytes → Bool) (inter dest : Dir) :
    Kept dest (moveFiles ans stuck inter dest).dst := by
  have := loop_kept ans inter ⟨true, inter, dest⟩
  unfold moveFiles
  dsimp only
  split <;> exact this

theorem hidden_iff {n : Bytes} : hidden n = false ↔ n.head? ≠ some 46 := by
  unfold hidden
  rw [beq_eq_false_iff_ne]

/-- **A successful move loses nothing**, as far as files with a leading dot are left out and copies between
devices are complete: everything is at the destination, under its name made valid, or with a number if there
was such a file already. -/
theorem move_success_partial (ans : Bytes → Answer) (hc : ∀ n, Complete (ans n)) (stuck : Bytes → Bool)
    (inter dest : Dir) (hok : (moveFiles ans stuck inter dest).ok = true) (n : Bytes) (x : Node)
    (hm : (n, x) ∈ inter) (hx : Thing x) (hh : n.head? ≠ some 46) :
    Arrived (moveFiles ans stuck inter dest).dst n x := by
  have hh := hidden_iff.mpr hh
  have h : (inter.foldl (moveStep ans) ⟨true, inter, dest⟩).ok = true := by
    unfold moveFiles at hok
    dsimp only at hok
    split at hok
    next h => exact h
    next h => exact hok
  have := loop_arrived ans hc inter ⟨true, inter, dest⟩ h (n, x) hm hx hh
  unfold moveFiles
  dsimp only
  rw [if_pos h]
  exact this

/-- **A failed move loses nothing**, if copies between devices are complete: everything is still where it was
or at the destination. -/
theorem move_failure_partial (ans : Bytes → Answer) (hc : ∀ n, Complete (ans n)) (stuck : Bytes → Bool)
    (inter dest : Dir) (hd : (inter.map (·.1)).Nodup) (hok : (moveFiles ans stuck inter dest).ok = false)
    (n : Bytes) (x : Node) (hm : (n, x) ∈ inter) (hx : Thing x) :
    get (moveFiles ans stuck inter dest).src n = some x ∨ Arrived (moveFiles ans stuck inter dest).dst n x := by
  have h : (inter.foldl (moveStep ans) ⟨true, inter, dest⟩).ok = false := by
    unfold moveFiles at hok
    dsimp only at hok
    split at hok
    next h => exact hok
    next h => simpa using h
  have := loop_safe ans hc inter ⟨true, inter, dest⟩ n x hx hd
    (fun e he => get_of_mem inter e.1 e.2 hd he) (Or.inl (get_of_mem inter n x hd hm))
  unfold moveFiles
  dsimp only
  rw [h, if_neg (by simp)]
  exact this

/- Three files: one is moved, one is copied and one has a name which is taken. -/
example : moveFiles (fun n => if n = lit "b" then .other true true none true else .done) (fun _ => false)
    [(lit "a", .file [1]), (lit "b", .file [2, 3]), (lit "c:", .dir 5)] [(lit "a", .file [9])] =
    ⟨true, [], [(lit "c_", .dir 5), (lit "b", .file [2, 3]), (lit "a.duplicate1", .file [1]), (lit "a", .file [9])]⟩ := by
  decide +kernel

/- A move which fails for the second file. -/
example : moveFiles (fun n => if n = lit "b" then .error else .done) (fun _ => false)
    [(lit "a", .file [1]), (lit "b", .file [2, 3])] [] =
    ⟨false, [(lit "b", .file [2, 3])], [(lit "a", .file [1])]⟩ := by
  decide +kernel

/- **A full disk loses data.** A copy to another device which is not complete is reported as a success; the
source is removed. -/
theorem copy_error_loses (n data : Bytes) (k : Nat) (hk : k < data.length) (stuck : Bytes → Bool) :
    moveFiles (fun _ => .other true true (some k) true) stuck [(n, .file data)] [] =
      ⟨true, [], [(makeValid false n, .file (data.take k))]⟩ ∧ data.take k ≠ data := by
  constructor
  · simp [moveFiles, moveStep, after, moveFile, uniqueName, unique, numbered, get, isFile, isDir, removable, put, del,
      copied]
  · intro h
    have := congrArg List.length h
    rw [List.length_take] at this
    omega

/- **A file with a leading dot which can not be moved is deleted**; the move is reported as a success. -/
theorem hidden_failure_loses (n : Bytes) (x : Node) (hn : n.head? = some 46) (dest : Dir) :
    moveFiles (fun _ => .error) (fun _ => false) [(n, x)] dest = ⟨true, [], dest⟩ := by
  have hn : hidden n = true := by rw [hidden, hn]; rfl
  simp [moveFiles, moveStep, after, moveFile, hn]

example : (lit ".htaccess").head? = some 46 := by decide +kernel

/- **A directory is never moved to another device**: an empty file of its name is left at the destination and
the move fails. -/
theorem directory_other_device (n : Bytes) (t : Nat) (ht : t ≠ 0) (hn : n.head? ≠ some 46) (r : Bool) (k : Option Nat)
    (stuck : Bytes → Bool) :
    moveFiles (fun _ => .other true true k r) stuck [(n, .dir t)] [] =
      ⟨false, [(n, .dir t)], [(makeValid false n, .file [])]⟩ := by
  have hn := hidden_iff.mpr hn
  simp [moveFiles, moveStep, after, moveFile, uniqueName, unique, numbered, get, isFile, isDir, removable, put, del,
      copied, ht, hn]

end Verif.Files
