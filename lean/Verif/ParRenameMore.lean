import Verif.ParRenameNames
/-
Which par2-files are renamed, what a fragment is, which par2-files are damaged, and that nothing changes if nothing is
counted (C96).
-/
namespace Verif.ParRename
open CStr FileName Files RarRename
open Scan (names contents moved get_names contents_length)

/- ## Nothing renamed, nothing changed -/

/-- A step which counts what it renames. -/
def Counted (st st' : St) : Prop := st.count ≤ st'.count ∧ (st'.count = st.count → st'.dir = st.dir)

theorem Counted.refl (st : St) : Counted st st := ⟨Nat.le_refl _, fun _ => rfl⟩

theorem Counted.trans {a b c : St} (h : Counted a b) (g : Counted b c) : Counted a c :=
  ⟨Nat.le_trans h.1 g.1, fun e => by
    have h1 := h.1; have h2 := g.1
    rw [g.2 (by omega), h.2 (by omega)]⟩

theorem renameFile_counted (env : Env) (st : St) (a b : Bytes) : Counted st (renameFile env st a b) := by
  unfold renameFile
  split
  · exact Counted.refl st
  · split
    · exact ⟨Nat.le_succ _, fun e => by dsimp only at e; omega⟩
    · exact Counted.refl st

theorem renamePars_counted {env : Env} {fuel : Nat} (l : List (Bytes × Bytes)) : ∀ {st s : St},
    renamePars env fuel st l = some s → Counted st s := by
  induction l with
  | nil => intro st s h; cases h; exact Counted.refl _
  | cons p l ih =>
    intro st s h
    rw [renamePars] at h
    split at h
    · exact nomatch h
    · exact (renameFile_counted _ _ _ _).trans (ih h)

theorem addSources_count (par : Bytes) (l : List (Option (Bytes × Bytes))) : ∀ st : St,
    (l.foldl (addSource par) st).count = st.count := by
  induction l with
  | nil => intro st; rfl
  | cons s l ih =>
    intro st
    rw [List.foldl_cons, ih]
    unfold addSource
    split
    · rfl
    · split <;> rfl

theorem loadPar_count (env : Env) (st : St) (n : Bytes) : (loadPar env st n).count = st.count := by
  unfold loadPar
  split
  · split
    · split
      · rfl
      · rw [addSources_count]
    · rfl
  · rfl

theorem afterLoad_count (env : Env) (st : St) : (afterLoad env st).count = st.count := by
  have h1 : ∀ (l : List Bytes) (st : St), (l.foldl (loadPar env) st).count = st.count := by
    intro l
    induction l with
    | nil => intro st; rfl
    | cons n l ih => intro st; rw [List.foldl_cons, ih, loadPar_count]
  have h2 : ∀ (l : List Bytes) (st : St), (l.foldl (extra env) st).count = st.count := by
    intro l
    induction l with
    | nil => intro st; rfl
    | cons n l ih =>
      intro st; rw [List.foldl_cons, ih]
      unfold extra
      split
      · rw [loadPar_count]
      · rfl
  unfold afterLoad
  split
  · rw [loadExtra_eq, h2]; exact h1 _ _
  · exact h1 _ _

theorem checkFile_counted (env : Env) (st : St) (n : Bytes) : Counted st (checkFile env st n) := by
  unfold checkFile
  split
  · split
    · exact Counted.refl st
    · dsimp only
      split
      · refine Counted.trans ?_ (renameFile_counted env _ _ _)
        exact ⟨Nat.le_refl _, fun _ => rfl⟩
      · exact ⟨Nat.le_refl _, fun _ => rfl⟩
  · exact Counted.refl st

theorem checkMissing_counted (env : Env) (st : St) : Counted st (checkMissing env st) := by
  unfold checkMissing
  split
  · exact ⟨Nat.le_refl _, fun _ => rfl⟩
  · exact Counted.refl st

theorem execFirst_counted {env : Env} {fuel : Nat} {detect : Bool} {st st' : St}
    (h : execFirst env fuel detect st = some st') : Counted st st' := by
  rw [execFirst_eq] at h
  obtain ⟨s, hs, h⟩ := Option.map_eq_some_iff.mp h
  have h1 : Counted st s := by
    unfold afterPars at hs
    split at hs
    · have := renamePars_counted _ hs
      exact this
    · cases hs; exact ⟨Nat.le_refl _, fun _ => rfl⟩
  have h2 : Counted s (afterLoad env s) := ⟨by rw [afterLoad_count]; exact Nat.le_refl _, fun _ => afterLoad_dir env s⟩
  have h3 : ∀ (l : List Bytes) (st : St), Counted st (l.foldl (checkFile env) st) := by
    intro l
    induction l with
    | nil => intro st; exact Counted.refl _
    | cons n l ih => intro st; exact (checkFile_counted env st n).trans (ih _)
  have h4 := h3 (fileNames (afterLoad env s).dir) (afterLoad env s)
  split at h
  · rw [← h]; exact ((h1.trans h2).trans h4).trans (checkMissing_counted env _)
  · rw [← h]; exact (h1.trans h2).trans h4

/- **Where nothing is renamed nothing changes**: if the number of renamed files is 0 at the end, the directory is as it
was, damaged par2-files included. -/
theorem nothing_renamed (env : Env) (fuel : Nat) (detect : Bool) (st st' : St)
    (h : execDir env fuel detect st = some st') (hc : st'.count = 0) : st'.dir = st.dir := by
  unfold execDir at h
  cases h1 : execFirst env fuel detect st with
  | none => rw [h1] at h; exact nomatch h
  | some s =>
    rw [h1] at h
    simp only [Option.some.injEq] at h
    have hb : Counted s st' ∧ (s.count = 0 → st' = s) := by
      rw [← h]
      split
      · rename_i g
        rw [Bool.and_eq_true, decide_eq_true_eq] at g
        refine ⟨?_, fun e => by omega⟩
        have : ∀ (l : List Bytes) (st : St), Counted st (l.foldl (fun st n => renameFile env st n (n ++ lit ".bad")) st) := by
          intro l
          induction l with
          | nil => intro st; exact Counted.refl _
          | cons n l ih => intro st; exact (renameFile_counted env st n _).trans (ih _)
        exact this s.bad s
      · exact ⟨Counted.refl s, fun _ => rfl⟩
    have hs : s.count = 0 := by have := hb.1.1; omega
    rw [hb.2 hs]
    have h2 := execFirst_counted h1
    exact h2.2 (by have := h2.1; omega)

/-- Such a directory: a damaged par2-file, and nothing to rename. -/
example : (execDir exampleEnv 5 true (start [(lit "p.par2", .file [1]), (lit "z", .file (lit "Z"))])).map
    (fun s => (s.dir, s.count, s.bad)) =
    some ([(lit "p.par2", .file [1]), (lit "z", .file (lit "Z"))], 0, [lit "p.par2"]) := by decide +kernel

/- ## The names of par2-files -/

/-- Two par2-files with different base names. -/
def OtherBase (env : Env) (a b : Bytes) : Prop :=
  baseLen env a ≠ baseLen env b ∨ (a.take (baseLen env a)).map WildMask.lower ≠ (b.take (baseLen env a)).map WildMask.lower

theorem differs_iff (env : Env) (p : Bytes × Bytes) (l : List (Bytes × Bytes)) :
    differs env p l = true ↔ ∃ q ∈ l, p.2 = q.2 ∧ OtherBase env p.1 q.1 := by
  induction l with
  | nil => simp [differs]
  | cons q l ih =>
    rw [differs]
    by_cases h : p.2 = q.2 ∧ OtherBase env p.1 q.1
    · rw [if_pos (by exact h)]
      exact ⟨fun _ => ⟨q, List.mem_cons_self, h⟩, fun _ => rfl⟩
    · rw [if_neg (by exact h), ih]
      constructor
      · rintro ⟨r, hr, g⟩; exact ⟨r, List.mem_cons_of_mem _ hr, g⟩
      · rintro ⟨r, hr, g⟩
        rcases List.mem_cons.1 hr with rfl | hr
        · exact absurd g h
        · exact ⟨r, hr, g⟩

theorem needRename_false (env : Env) (l : List (Bytes × Bytes)) : needRename env l = false ↔
    (∀ p ∈ l, ext p.1 = some (lit ".par2")) ∧ l.Pairwise (fun p q => p.2 = q.2 → ¬ OtherBase env p.1 q.1) := by
  induction l with
  | nil => simp [needRename]
  | cons p l ih =>
    rw [needRename]
    by_cases h : ext p.1 ≠ some (lit ".par2")
    · rw [if_pos h]
      constructor
      · intro g; exact nomatch g
      · rintro ⟨g, _⟩; exact absurd (g p List.mem_cons_self) h
    · rw [if_neg h]
      have h' := Classical.not_not.1 h
      by_cases g : differs env p l = true
      · rw [if_pos g]
        constructor
        · intro k; exact nomatch k
        · rintro ⟨_, k⟩
          rw [differs_iff] at g
          obtain ⟨q, hq, e, o⟩ := g
          exact absurd o ((List.pairwise_cons.1 k).1 q hq e)
      · rw [if_neg g, ih, List.pairwise_cons]
        rw [differs_iff] at g
        constructor
        · rintro ⟨a, b⟩
          refine ⟨fun q hq => ?_, fun q hq e o => g ⟨q, hq, e, o⟩, b⟩
          rcases List.mem_cons.1 hq with rfl | hq
          · exact h'
          · exact a q hq
        · rintro ⟨a, _, b⟩
          exact ⟨fun q hq => a q (List.mem_cons_of_mem _ hq), b⟩

/- **Par2-files with proper names keep them**: if every file with a par2-header is named `….par2`, and those of one set
have the same base name, none of them is renamed before the others are checked. -/
theorem proper_pars_kept (env : Env) (fuel : Nat) (st s : St)
    (h1 : ∀ n data id, (n, Node.file data) ∈ st.dir → env.setId data = some id → ext n = some (lit ".par2"))
    (h2 : ∀ n m data data' id, (n, Node.file data) ∈ st.dir → (m, Node.file data') ∈ st.dir → env.setId data = some id →
      env.setId data' = some id → ParName.same true n m = true)
    (h : afterPars env fuel st = some s) : s.dir = st.dir := by
  have hmem : ∀ p ∈ parInfos env st.dir, ∃ data, (p.1, Node.file data) ∈ st.dir ∧ env.setId data = some p.2 := by
    intro p hp
    unfold parInfos at hp
    rw [List.mem_filterMap] at hp
    obtain ⟨e, he, g⟩ := hp
    obtain ⟨n, x⟩ := e
    cases x with
    | dir t => exact nomatch g
    | file data =>
      dsimp only at g
      rw [Option.map_eq_some_iff] at g
      obtain ⟨i, hi, rfl⟩ := g
      exact ⟨data, he, hi⟩
  have hn : needRename env (parInfos env st.dir) = false := by
    rw [needRename_false]
    constructor
    · intro p hp
      obtain ⟨data, hd, hi⟩ := hmem p hp
      exact h1 p.1 data p.2 hd hi
    · rw [List.pairwise_iff_forall_sublist]
      intro p q hpq e o
      obtain ⟨d1, hd1, hi1⟩ := hmem p (hpq.subset (by simp))
      obtain ⟨d2, hd2, hi2⟩ := hmem q (hpq.subset (by simp))
      have hs := h2 p.1 q.1 d1 d2 p.2 hd1 hd2 hi1 (by rw [e]; exact hi2)
      unfold ParName.same at hs
      unfold OtherBase baseLen at o
      cases ha : ParName.parse true p.1 with
      | none => rw [ha] at hs; exact nomatch hs
      | some x =>
        cases hb : ParName.parse true q.1 with
        | none => rw [ha, hb] at hs; exact nomatch hs
        | some y =>
          rw [ha, hb] at hs o
          simp only [Bool.and_eq_true, beq_iff_eq] at hs
          dsimp only at o
          rcases o with o | o
          · exact o hs.1
          · exact o hs.2
  unfold afterPars at h
  rw [hn] at h
  simp only [Bool.false_eq_true, if_false, Option.some.injEq] at h
  rw [← h]

/- ## All get new names -/

theorem renameFile_moves {env : Env} {st : St} {src dst data : Bytes} (hren : ∀ a b, env.ren a b = true)
    (hg : get st.dir src = some (.file data)) (hd : isFile (get st.dir dst) = false) (hdir : isDir (get st.dir dst) = false) :
    get (renameFile env st src dst).dir dst = some (.file data) := by
  have hn : get st.dir dst = none := by
    cases hx : get st.dir dst with
    | none => rfl
    | some x =>
      rw [hx] at hd hdir
      cases x with
      | file _ => exact nomatch hd
      | dir _ => exact nomatch hdir
  unfold renameFile
  rw [hg]
  dsimp only
  rw [hren, hn]
  simp only [renameOk, Bool.and_self, if_true]
  rw [get_put', if_pos rfl]

theorem renamePars_moves {env : Env} {fuel : Nat} (hren : ∀ a b, env.ren a b = true) (l : List (Bytes × Bytes)) : ∀ {st s : St},
    (l.map (·.1)).Nodup → (∀ p ∈ l, ∃ data, get st.dir p.1 = some (.file data)) →
    (∀ p ∈ l, ∀ j, isDir (get st.dir (parDest p.2 j)) = false) → renamePars env fuel st l = some s →
    ∀ p ∈ l, ∀ data, get st.dir p.1 = some (.file data) → ∃ j, get s.dir (parDest p.2 j) = some (.file data) := by
  induction l with
  | nil => intro st s _ _ _ _ p hp; exact nomatch hp
  | cons p l ih =>
    intro st s hn hf hdir h q hq data hg
    rw [renamePars] at h
    split at h
    · exact nomatch h
    · rename_i k hk
      obtain ⟨hfree, j, hj⟩ := freePar_some hk
      rw [List.map_cons, List.nodup_cons] at hn
      have hpd : isDir (get st.dir p.1) = false := by
        obtain ⟨d, hd⟩ := hf p List.mem_cons_self
        rw [hd]; rfl
      have hother : ∀ r ∈ l, ∀ d, get st.dir r.1 = some (.file d) →
          get (renameFile env st p.1 k).dir r.1 = some (.file d) := by
        intro r hr d hd
        refine renameFile_other (fun e => hn.1 (e ▸ List.mem_map_of_mem (f := (·.1)) hr)) (fun e => ?_) hd
        rw [← e, hd] at hfree; exact nomatch hfree
      rcases List.mem_cons.1 hq with rfl | hq
      · have hm := renameFile_moves (env := env) (st := st) hren hg hfree (by rw [hj]; exact hdir q List.mem_cons_self j)
        refine ⟨j, ?_⟩
        rw [← hj]
        refine renamePars_other l (fun r hr e => ?_) hm h
        obtain ⟨d, hd⟩ := hf r (List.mem_cons_of_mem _ hr)
        rw [e] at hd
        rw [hd] at hfree; exact nomatch hfree
      · refine ih hn.2 (fun r hr => ?_) (fun r hr i => ?_) h q hq data (hother q hq data hg)
        · obtain ⟨d, hd⟩ := hf r (List.mem_cons_of_mem _ hr)
          exact ⟨d, hother r hr d hd⟩
        · exact renameFile_dir hpd (hdir r (List.mem_cons_of_mem _ hr) i)

/- **Par2-files with other names get names after their set**: if one of them is not named `….par2`, or two of one set
have different base names, each is renamed to the identification of its set with a number. -/
theorem hidden_pars_renamed (env : Env) (fuel : Nat) (st s : St) (hd : (names st.dir).Nodup) (hren : ∀ a b, env.ren a b = true)
    (hw : (∃ n data id, get st.dir n = some (.file data) ∧ env.setId data = some id ∧ ext n ≠ some (lit ".par2")) ∨
      (∃ n m data data' id, get st.dir n = some (.file data) ∧ get st.dir m = some (.file data') ∧ env.setId data = some id ∧
        env.setId data' = some id ∧ OtherBase env n m ∧ OtherBase env m n))
    (hdir : ∀ n t, get st.dir n = some (.dir t) → ∀ id j, n ≠ parDest id j)
    (h : afterPars env fuel st = some s) (n data id : Bytes) (hg : get st.dir n = some (.file data)) (hi : env.setId data = some id) :
    ∃ j, get s.dir (parDest id j) = some (.file data) := by
  have hinfo : ∀ n data id, get st.dir n = some (.file data) → env.setId data = some id → (n, id) ∈ parInfos env st.dir := by
    intro n data id hg hi
    unfold parInfos
    rw [List.mem_filterMap]
    exact ⟨(n, .file data), get_mem _ _ _ hg, by dsimp only; rw [hi]; rfl⟩
  have hn : needRename env (parInfos env st.dir) = true := by
    rw [← Bool.not_eq_false, needRename_false]
    rintro ⟨a, b⟩
    rcases hw with ⟨n, data, id, g1, g2, g3⟩ | ⟨n, m, data, data', id, g1, g2, g3, g4, g5, g6⟩
    · exact g3 (a _ (hinfo n data id g1 g2))
    · have hne : n ≠ m := by
        intro e
        rw [e] at g5
        rcases g5 with g | g
        · exact g rfl
        · exact g rfl
      have i1 := hinfo n data id g1 g3
      have i2 := hinfo m data' id g2 g4
      obtain ⟨i, hi1, e1⟩ := List.getElem_of_mem i1
      obtain ⟨k, hk1, e2⟩ := List.getElem_of_mem i2
      rw [List.pairwise_iff_getElem] at b
      rcases Nat.lt_trichotomy i k with hlt | heq | hgt
      · have := b i k hi1 hk1 hlt
        rw [e1, e2] at this
        exact this rfl g5
      · subst heq
        rw [e1] at e2
        exact hne (congrArg Prod.fst e2)
      · have := b k i hk1 hi1 hgt
        rw [e1, e2] at this
        exact this rfl g6
  unfold afterPars at h
  rw [if_pos hn] at h
  have hnames : ((parInfos env st.dir).map (·.1)).Nodup := by
    refine List.Sublist.nodup ?_ hd
    unfold parInfos names
    clear hdir hw hn h hinfo hd hg
    induction st.dir with
    | nil => exact List.Sublist.refl _
    | cons e d ih =>
      rw [List.filterMap_cons]
      split
      · exact ih.cons _
      · rename_i b hb
        cases hx : e.2 with
        | dir t => rw [hx] at hb; exact nomatch hb
        | file data' =>
          rw [hx] at hb
          dsimp only at hb
          rw [Option.map_eq_some_iff] at hb
          obtain ⟨i, _, rfl⟩ := hb
          exact ih.cons_cons _
  refine renamePars_moves hren (parInfos env st.dir) (st := { st with hashes := [], bad := [], loaded := [] }) hnames
    (fun p hp => ?_) (fun p hp j => ?_) h (n, id) (hinfo n data id hg hi) data hg
  · obtain ⟨d, hd, _⟩ := parInfos_file hd hp
    exact ⟨d, hd⟩
  · dsimp only
    cases hx : get st.dir (parDest p.2 j) with
    | none => rfl
    | some x =>
      cases x with
      | file _ => rfl
      | dir t => exact absurd rfl (hdir _ t hx p.2 j)

/- ## Fragments -/

/- **What a fragment is**: the first fragments of a file are named like it, with a dot and a number of at most 1. -/
theorem isSplit_iff (n c : Bytes) : isSplit n c = true ↔
    ∃ c' r, n = c' ++ 46 :: r ∧ c'.map WildMask.lower = c.map WildMask.lower ∧ (∀ b ∈ r, isDigit b = true) ∧ ParName.atoi r ≤ 1 := by
  unfold isSplit
  constructor
  · intro h
    rw [Bool.and_eq_true, Bool.and_eq_true, beq_iff_eq] at h
    obtain ⟨⟨_, h1⟩, h2⟩ := h
    split at h2
    · rename_i r hr
      rw [Bool.and_eq_true, decide_eq_true_eq, List.all_eq_true] at h2
      refine ⟨n.take c.length, r, ?_, h1, h2.1, h2.2⟩
      rw [← hr, List.take_append_drop]
    · exact nomatch h2
  · rintro ⟨c', r, rfl, h1, h2, h3⟩
    have hl : c.length = c'.length := by
      have := congrArg List.length h1
      rw [List.length_map, List.length_map] at this
      exact this.symm
    rw [hl, List.take_left' rfl, List.drop_left' rfl]
    have hs : (lastIdx 46 (c' ++ 46 :: r)).isSome = true := by
      cases hx : lastIdx 46 (c' ++ 46 :: r) with
      | none => exact absurd (by simp) (lastIdx_none hx)
      | some i => rfl
    rw [hs, Bool.true_and, Bool.and_eq_true, beq_iff_eq]
    refine ⟨h1, ?_⟩
    show (r.all isDigit && decide (ParName.atoi r ≤ 1)) = true
    rw [Bool.and_eq_true, decide_eq_true_eq, List.all_eq_true]
    exact ⟨h2, h3⟩

/- **A first fragment is not renamed**, though it begins like the file. -/
theorem fragment_kept (env : Env) (st : St) (c c' r data : Bytes) (e : Entry) (hc : c'.map WildMask.lower = c.map WildMask.lower)
    (hr : ∀ b ∈ r, isDigit b = true) (h1 : ParName.atoi r ≤ 1) (hg : get st.dir (c' ++ 46 :: r) = some (.file data))
    (he : st.hashes.find? (fun e => e.hash == env.hash data) = some e) (hn : e.name = c) :
    (checkFile env st (c' ++ 46 :: r)).dir = st.dir := by
  unfold checkFile
  rw [hg]
  dsimp only
  rw [he]
  dsimp only
  rw [hn, (isSplit_iff _ _).2 ⟨c', r, rfl, hc, hr, h1⟩]
  simp

/- ## Damaged par2-files -/

/-- A par2-file which cannot be used: it is empty, cannot be read, or names a file without describing it. -/
def Damaged (env : Env) (data : Bytes) : Prop :=
  data = [] ∨ env.load data = none ∨ ∃ l, env.load data = some l ∧ none ∈ l

theorem addSources_bad (par : Bytes) (l : List (Option (Bytes × Bytes))) : ∀ st : St,
    (∀ n, n ∈ (l.foldl (addSource par) st).bad ↔ n ∈ st.bad ∨ (n = par ∧ none ∈ l)) ∧
    ((l.foldl (addSource par) st).damaged = true ↔ st.damaged = true ∨ none ∈ l) := by
  induction l with
  | nil => intro st; simp
  | cons s l ih =>
    intro st
    rw [List.foldl_cons]
    obtain ⟨h1, h2⟩ := ih (addSource par st s)
    cases s with
    | none =>
      constructor
      · intro n
        rw [h1 n]
        simp only [addSource, List.mem_append, List.mem_cons, true_or, and_true, List.not_mem_nil, or_false]
        constructor
        · rintro ((h | h) | h)
          · exact Or.inl h
          · exact Or.inr h
          · exact Or.inr h.1
        · rintro (h | h)
          · exact Or.inl (Or.inl h)
          · exact Or.inl (Or.inr h)
      · rw [h2]; simp [addSource]
    | some p =>
      have e : (addSource par st (some p)).bad = st.bad ∧ (addSource par st (some p)).damaged = st.damaged := by
        unfold addSource
        split
        · rename_i g; exact nomatch g
        · split <;> exact ⟨rfl, rfl⟩
      constructor
      · intro n; rw [h1 n, e.1]; simp
      · rw [h2, e.2]; simp

theorem loadPar_bad (env : Env) (st : St) (m data : Bytes) (hg : get st.dir m = some (.file data)) :
    (∀ n, n ∈ (loadPar env st m).bad ↔ n ∈ st.bad ∨ (n = m ∧ Damaged env data)) ∧
    ((loadPar env st m).damaged = true ↔ st.damaged = true ∨ Damaged env data) := by
  unfold loadPar
  rw [hg]
  dsimp only
  cases hl : env.load data with
  | none =>
    have hd : Damaged env data := Or.inr (Or.inl hl)
    simp [hd]
  | some l =>
    dsimp only
    by_cases h0 : data = []
    · rw [if_pos h0]
      have hd : Damaged env data := Or.inl h0
      simp [hd]
    · rw [if_neg h0]
      have hd : Damaged env data ↔ none ∈ l := by
        unfold Damaged
        rw [hl]
        simp [h0]
      obtain ⟨h1, h2⟩ := addSources_bad m l { st with loaded := st.loaded ++ [m] }
      constructor
      · intro n; rw [h1 n, hd]
      · rw [h2, hd]

theorem loadPars_bad (env : Env) (l : List Bytes) : ∀ st : St, (∀ m ∈ l, ∃ data, get st.dir m = some (.file data)) →
    (∀ n, n ∈ (l.foldl (loadPar env) st).bad ↔ n ∈ st.bad ∨ (n ∈ l ∧ ∃ data, get st.dir n = some (.file data) ∧ Damaged env data)) ∧
    ((l.foldl (loadPar env) st).damaged = true ↔
      st.damaged = true ∨ ∃ n ∈ l, ∃ data, get st.dir n = some (.file data) ∧ Damaged env data) := by
  induction l with
  | nil => intro st _; simp
  | cons m l ih =>
    intro st hf
    rw [List.foldl_cons]
    have hdir := loadPar_dir env st m
    obtain ⟨data, hg⟩ := hf m List.mem_cons_self
    obtain ⟨h1, h2⟩ := ih (loadPar env st m) (fun k hk => by rw [hdir]; exact hf k (List.mem_cons_of_mem _ hk))
    obtain ⟨g1, g2⟩ := loadPar_bad env st m data hg
    constructor
    · intro n
      rw [h1 n, g1 n, hdir]
      constructor
      · rintro ((h | ⟨rfl, h⟩) | ⟨h, k⟩)
        · exact Or.inl h
        · exact Or.inr ⟨List.mem_cons_self, data, hg, h⟩
        · exact Or.inr ⟨List.mem_cons_of_mem _ h, k⟩
      · rintro (h | ⟨h, d, hd, k⟩)
        · exact Or.inl (Or.inl h)
        · rcases List.mem_cons.1 h with rfl | h
          · rw [hg] at hd; cases hd; exact Or.inl (Or.inr ⟨rfl, k⟩)
          · exact Or.inr ⟨h, d, hd, k⟩
    · rw [h2, g2, hdir]
      constructor
      · rintro ((h | h) | ⟨k, hk, h⟩)
        · exact Or.inl h
        · exact Or.inr ⟨m, List.mem_cons_self, data, hg, h⟩
        · exact Or.inr ⟨k, List.mem_cons_of_mem _ hk, h⟩
      · rintro (h | ⟨k, hk, d, hd, h⟩)
        · exact Or.inl (Or.inl h)
        · rcases List.mem_cons.1 hk with rfl | hk
          · rw [hg] at hd; cases hd; exact Or.inl (Or.inr h)
          · exact Or.inr ⟨k, hk, d, hd, h⟩

/- **Which par2-files are damaged**: of the main par2-files exactly those which are empty, cannot be read, or name a file
without a description are marked as bad, and the directory is marked as damaged if there is one. -/
theorem main_damaged (env : Env) (s : St) (hb : s.bad = []) (hdm : s.damaged = false)
    (hf : ∀ m ∈ ParName.findMain (s.dir.map (·.1)) [], ∃ data, get s.dir m = some (.file data)) :
    (∀ n, n ∈ (loadMain env s).bad ↔ n ∈ ParName.findMain (s.dir.map (·.1)) [] ∧ ∃ data, get s.dir n = some (.file data) ∧ Damaged env data) ∧
    ((loadMain env s).damaged = true ↔
      ∃ n ∈ ParName.findMain (s.dir.map (·.1)) [], ∃ data, get s.dir n = some (.file data) ∧ Damaged env data) := by
  unfold loadMain
  obtain ⟨h1, h2⟩ := loadPars_bad env (ParName.findMain (s.dir.map (·.1)) []) s hf
  constructor
  · intro n; rw [h1 n, hb]; simp
  · rw [h2, hdm]; simp

/- **A damaged par2-file gets the extension `.bad`** if a file was renamed: unless this name is in use, or another damaged
par2-file gets its name. -/
theorem bad_renamed (env : Env) (fuel : Nat) (detect : Bool) (st st1 st' : St) (hren : ∀ a b, env.ren a b = true)
    (h1 : execFirst env fuel detect st = some st1) (h : execDir env fuel detect st = some st') (hc : 0 < st1.count) (n data : Bytes)
    (hn : n ∈ st1.bad) (hg : get st1.dir n = some (.file data)) (hfree : get st1.dir (n ++ lit ".bad") = none)
    (h2 : ∀ k ∈ st1.bad, n ≠ k ++ lit ".bad" ∧ k ≠ n ++ lit ".bad") : get st'.dir (n ++ lit ".bad") = some (.file data) := by
  unfold execDir at h
  rw [h1] at h
  simp only [Option.some.injEq] at h
  have hb : (decide (st1.count > 0) && !st1.bad.isEmpty) = true := by
    rw [Bool.and_eq_true, decide_eq_true_eq]
    refine ⟨hc, ?_⟩
    cases hx : st1.bad with
    | nil => rw [hx] at hn; exact nomatch hn
    | cons a l => rfl
  rw [if_pos hb] at h
  rw [← h]
  unfold renameBad
  have key : ∀ (l : List Bytes) (s : St), (∀ k ∈ l, n ≠ k ++ lit ".bad" ∧ k ≠ n ++ lit ".bad") →
      (get s.dir (n ++ lit ".bad") = some (.file data) ∧ get s.dir n = none) ∨
        (n ∈ l ∧ get s.dir n = some (.file data) ∧ get s.dir (n ++ lit ".bad") = none) →
      get (l.foldl (fun st n => renameFile env st n (n ++ lit ".bad")) s).dir (n ++ lit ".bad") = some (.file data) := by
    intro l
    induction l with
    | nil =>
      intro s _ h
      rcases h with h | h
      · exact h.1
      · exact nomatch h.1
    | cons k l ih =>
      intro s hk h
      rw [List.foldl_cons]
      obtain ⟨k1, k2⟩ := hk k List.mem_cons_self
      refine ih _ (fun m hm => hk m (List.mem_cons_of_mem _ hm)) ?_
      by_cases e : k = n
      · subst e
        rcases h with ⟨g1, g2⟩ | ⟨_, g1, g2⟩
        · left
          rw [renameFile_gone g2]; exact ⟨g1, g2⟩
        · left
          refine ⟨renameFile_moves hren g1 (by rw [g2]; rfl) (by rw [g2]; rfl), ?_⟩
          unfold renameFile
          rw [g1]
          dsimp only
          rw [hren, g2]
          simp only [renameOk, Bool.and_self, if_true]
          rw [get_put', if_neg (bad_ne k), get_del, if_pos rfl]
      · have e2 : n ++ lit ".bad" ≠ k ++ lit ".bad" := fun x => e (List.append_cancel_right x).symm
        rcases h with ⟨g1, g2⟩ | ⟨g0, g1, g2⟩
        · left
          exact ⟨renameFile_other (fun x => k2 x.symm) e2 g1, renameFile_get k1 g2⟩
        · right
          refine ⟨(List.mem_cons.1 g0).resolve_left (fun x => e x.symm), renameFile_other (fun x => e x.symm) k1 g1,
            renameFile_get e2 g2⟩
  exact key st1.bad st1 h2 (Or.inr ⟨hn, hg, hfree⟩)

end Verif.ParRename
