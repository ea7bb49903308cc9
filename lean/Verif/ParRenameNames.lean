import Verif.ParRenameProps
import Verif.RarRenameProps
/-
Which names the files get by par2-files, which files are not touched, and that the search for names ends.
-/
namespace Verif.ParRename
open CStr FileName Files RarRename
open Scan (names contents moved get_names contents_length)

/- ## What is recorded -/

theorem addSource_mem (par : Bytes) (st : St) (s : Option (Bytes × Bytes)) (e : Entry) (h : e ∈ (addSource par st s).hashes) :
    e ∈ st.hashes ∨ s = some (e.name, e.hash) := by
  unfold addSource at h
  split at h
  · exact Or.inl h
  · split at h
    · exact Or.inl h
    · rcases List.mem_append.mp h with h | h
      · exact Or.inl h
      · rw [List.mem_singleton.mp h]; exact Or.inr rfl

theorem addSources_mem (par : Bytes) (l : List (Option (Bytes × Bytes))) : ∀ (st : St) (e : Entry), e ∈ (l.foldl (addSource par) st).hashes →
    e ∈ st.hashes ∨ some (e.name, e.hash) ∈ l := by
  induction l with
  | nil => intro st e h; exact Or.inl h
  | cons s l ih =>
    intro st e h
    rw [List.foldl_cons] at h
    rcases ih _ e h with h | h
    · rcases addSource_mem par st s e h with h | h
      · exact Or.inl h
      · exact Or.inr (h ▸ List.mem_cons_self)
    · exact Or.inr (List.mem_cons_of_mem _ h)

/-- A file of the directory describes it. -/
def Describes (env : Env) (d : Dir) (p : Bytes × Bytes) : Prop :=
  ∃ n data l, get d n = some (.file data) ∧ env.load data = some l ∧ some p ∈ l

theorem loadPar_mem (env : Env) (st : St) (n : Bytes) (e : Entry) (h : e ∈ (loadPar env st n).hashes) :
    e ∈ st.hashes ∨ Describes env st.dir (e.name, e.hash) := by
  unfold loadPar at h
  split at h
  · rename_i data hg
    split at h
    · rename_i l hl
      split at h
      · exact Or.inl h
      · rcases addSources_mem n l _ e h with h | h
        · exact Or.inl h
        · exact Or.inr ⟨n, data, l, hg, hl, h⟩
    · exact Or.inl h
  · exact Or.inl h

theorem loadPars_mem (env : Env) (d : Dir) (f : St → Bytes → St) (hf : ∀ st n e, st.dir = d → e ∈ (f st n).hashes → e ∈ st.hashes ∨ Describes env d (e.name, e.hash))
    (hd : ∀ st n, (f st n).dir = st.dir) (l : List Bytes) : ∀ (st : St) (e : Entry), st.dir = d → e ∈ (l.foldl f st).hashes →
    e ∈ st.hashes ∨ Describes env d (e.name, e.hash) := by
  induction l with
  | nil => intro st e _ h; exact Or.inl h
  | cons n l ih =>
    intro st e h0 h
    rw [List.foldl_cons] at h
    rcases ih _ e (by rw [hd, h0]) h with h | h
    · exact hf st n e h0 h
    · exact Or.inr h

/- Whatever is recorded is described by a file of the directory. -/
theorem recorded_described (env : Env) (fuel : Nat) (st s : St) (hs : afterPars env fuel st = some s) (p : Bytes × Bytes)
    (h : p ∈ recorded env s) : Describes env s.dir p := by
  obtain ⟨e, he, rfl⟩ := List.mem_map.mp h
  have hnil := (afterPars_rest hs).2.1
  have key : e ∈ s.hashes ∨ Describes env s.dir (e.name, e.hash) := by
    have k1 : ∀ e, e ∈ (loadMain env s).hashes → e ∈ s.hashes ∨ Describes env s.dir (e.name, e.hash) := fun e h =>
      loadPars_mem env s.dir (loadPar env) (fun st n e h0 h => by rw [← h0]; exact loadPar_mem env st n e h) (loadPar_dir env) _ s e rfl h
    unfold afterLoad at he
    split at he
    · rw [loadExtra_eq] at he
      rcases loadPars_mem env s.dir (extra env) (fun st n e h0 h => by
          unfold extra at h
          split at h
          · rw [← h0]; exact loadPar_mem env st n e h
          · exact Or.inl h) (fun st n => by
          unfold extra
          split
          · exact loadPar_dir env st n
          · rfl) _ _ e (loadMain_dir env s) he with h | h
      · exact k1 e h
      · exact Or.inr h
    · exact k1 e he
  rcases key with h | h
  · rw [hnil] at h; exact nomatch h
  · exact h

theorem addSource_mono (par : Bytes) (st : St) (s : Option (Bytes × Bytes)) : ∀ e ∈ st.hashes, e ∈ (addSource par st s).hashes := by
  intro e he
  unfold addSource
  split
  · exact he
  · split
    · exact he
    · exact List.mem_append_left _ he

theorem addSources_mono (par : Bytes) (l : List (Option (Bytes × Bytes))) : ∀ st : St, ∀ e ∈ st.hashes, e ∈ (l.foldl (addSource par) st).hashes := by
  induction l with
  | nil => intro st e he; exact he
  | cons s l ih => intro st e he; exact ih _ e (addSource_mono par st s e he)

theorem addSources_has (par : Bytes) (l : List (Option (Bytes × Bytes))) (p : Bytes × Bytes) : ∀ st : St, some p ∈ l →
    ∃ e ∈ (l.foldl (addSource par) st).hashes, e.hash = p.2 := by
  induction l with
  | nil => intro st h; exact nomatch h
  | cons s l ih =>
    intro st h
    rw [List.foldl_cons]
    rcases List.mem_cons.mp h with h | h
    · have : ∃ e ∈ (addSource par st s).hashes, e.hash = p.2 := by
        rw [← h]
        obtain ⟨name, hash⟩ := p
        unfold addSource
        dsimp only
        split
        · rename_i ha
          obtain ⟨e, he, h2⟩ := List.any_eq_true.mp ha
          exact ⟨e, he, eq_of_beq h2⟩
        · exact ⟨_, List.mem_append_right _ (List.mem_singleton.mpr rfl), rfl⟩
      obtain ⟨e, he, h2⟩ := this
      exact ⟨e, addSources_mono par l _ e he, h2⟩
    · exact ih _ h

theorem loadPar_mono (env : Env) (st : St) (n : Bytes) : ∀ e ∈ st.hashes, e ∈ (loadPar env st n).hashes := by
  intro e he
  unfold loadPar
  split
  · split
    · split
      · exact he
      · exact addSources_mono n _ _ e he
    · exact he
  · exact he

theorem loadPars_mono (env : Env) (l : List Bytes) : ∀ st : St, ∀ e ∈ st.hashes, e ∈ (l.foldl (loadPar env) st).hashes := by
  induction l with
  | nil => intro st e he; exact he
  | cons n l ih => intro st e he; exact ih _ e (loadPar_mono env st n e he)

theorem loadPars_has (env : Env) (l : List Bytes) (n data : Bytes) (ds : List (Option (Bytes × Bytes))) (p : Bytes × Bytes)
    (h0 : data ≠ []) (hl : env.load data = some ds) (hp : some p ∈ ds) : ∀ st : St, get st.dir n = some (.file data) → n ∈ l →
    ∃ e ∈ (l.foldl (loadPar env) st).hashes, e.hash = p.2 := by
  induction l with
  | nil => intro st _ h; exact nomatch h
  | cons m l ih =>
    intro st hg h
    rw [List.foldl_cons]
    rcases List.mem_cons.mp h with h | h
    · have : ∃ e ∈ (loadPar env st m).hashes, e.hash = p.2 := by
        rw [← h]
        unfold loadPar
        rw [hg]
        dsimp only
        rw [hl]
        dsimp only
        rw [if_neg h0]
        exact addSources_has n ds p _ hp
      obtain ⟨e, he, h2⟩ := this
      exact ⟨e, loadPars_mono env l _ e he, h2⟩
    · exact ih _ (by rw [loadPar_dir]; exact hg) h

/- Whatever is described by a readable main par2-file is recorded: its begin, under the first name which is described
with this begin. -/
theorem described_recorded (env : Env) (s : St) (n data : Bytes) (ds : List (Option (Bytes × Bytes))) (p : Bytes × Bytes)
    (hg : get s.dir n = some (.file data)) (h0 : data ≠ []) (hm : n ∈ ParName.findMain (names s.dir) []) (hl : env.load data = some ds)
    (hp : some p ∈ ds) : ∃ r, (r, p.2) ∈ recorded env s := by
  obtain ⟨e, he, h2⟩ := loadPars_has env _ n data ds p h0 hl hp s hg hm
  refine ⟨e.name, List.mem_map.mpr ⟨e, ?_, by rw [h2]⟩⟩
  unfold afterLoad
  split
  · rw [loadExtra_eq]
    have : ∀ (l : List Bytes) (st : St), e ∈ st.hashes → e ∈ (l.foldl (extra env) st).hashes := by
      intro l
      induction l with
      | nil => intro st h; exact h
      | cons m l ih =>
        intro st h
        rw [List.foldl_cons]
        apply ih
        unfold extra
        split
        · exact loadPar_mono env st m e h
        · exact h
    exact this _ _ he
  · exact he

/- ## Names -/

theorem setFound_mem {h : Bytes} {l : List Entry} {e : Entry} (he : e ∈ setFound h l) : ∃ f ∈ l, f.name = e.name ∧ f.hash = e.hash := by
  have h2 : (e.name, e.hash) ∈ (setFound h l).map (fun e => (e.name, e.hash)) := List.mem_map.mpr ⟨e, he, rfl⟩
  rw [setFound_map] at h2
  obtain ⟨f, hf, hh⟩ := List.mem_map.mp h2
  exact ⟨f, hf, (Prod.mk.inj hh).1, (Prod.mk.inj hh).2⟩

/-- The names and hashes of the records. -/
def pairs (st : St) : List (Bytes × Bytes) := st.hashes.map (fun e => (e.name, e.hash))

theorem checkFile_pairs (env : Env) (st : St) (n : Bytes) : pairs (checkFile env st n) = pairs st := by
  unfold pairs checkFile
  split
  · split
    · rfl
    · dsimp only
      split
      · rw [renameFile_hashes]; exact setFound_map _ _
      · exact setFound_map _ _
  · rfl

/- What one step does. -/
theorem checkFile_cases (env : Env) (st : St) (n : Bytes) :
    (checkFile env st n).dir = st.dir ∨ ∃ data r x, get st.dir n = some (.file data) ∧ (r, env.hash data) ∈ pairs st ∧
      get st.dir r = none ∧ x = Node.file data ∧ (checkFile env st n).dir = put (del st.dir n) r x := by
  unfold checkFile
  split
  · rename_i data hg
    split
    · exact Or.inl rfl
    · rename_i e he
      dsimp only
      split
      · rename_i hc
        simp only [Bool.and_eq_true, Bool.not_eq_true'] at hc
        unfold renameFile
        dsimp only
        rw [hg]
        dsimp only
        split
        · rename_i hr
          right
          have hb : (e.hash == env.hash data) = true := by simpa using List.find?_some he
          have hh : e.hash = env.hash data := eq_of_beq hb
          refine ⟨data, e.name, .file data, rfl, List.mem_map.mpr ⟨e, List.mem_of_find?_eq_some he, by rw [hh]⟩, ?_, rfl, rfl⟩
          cases hn : get st.dir e.name with
          | none => rfl
          | some y =>
            rw [hn] at hc hr
            cases y with
            | file _ => exact nomatch hc.1
            | dir _ => simp [renameOk] at hr
        · exact Or.inl rfl
      · exact Or.inl rfl
  · exact Or.inl rfl

theorem pairs_find {st : St} {r h : Bytes} (hr : (r, h) ∈ pairs st) (hl : ((pairs st).map (·.2)).Nodup) :
    ∃ e, st.hashes.find? (fun e => e.hash == h) = some e ∧ e.name = r := by
  unfold pairs at hr hl
  rw [List.map_map] at hl
  generalize st.hashes = l at hr hl ⊢
  induction l with
  | nil => exact nomatch hr
  | cons f l ih =>
    rw [List.find?_cons]
    rw [List.map_cons, List.nodup_cons] at hl
    rcases List.mem_cons.mp hr with hr | hr
    · have e1 := (Prod.mk.inj hr).1
      have e2 := (Prod.mk.inj hr).2
      rw [← e2, beq_self_eq_true]
      exact ⟨f, rfl, e1.symm⟩
    · have hne : (f.hash == h) = false := by
        cases hb : f.hash == h with
        | false => rfl
        | true =>
          exfalso
          obtain ⟨g, hg, e3⟩ := List.mem_map.mp hr
          refine hl.1 (List.mem_map.mpr ⟨g, hg, ?_⟩)
          have := eq_of_beq hb
          dsimp only [Function.comp]
          rw [(Prod.mk.inj e3).2, this]
      rw [hne]
      exact ih hr hl.2

/- A file whose name is free is renamed. -/
theorem checkFile_renames (env : Env) (hren : ∀ a b, env.ren a b = true) (st : St) (n data r : Bytes)
    (hg : get st.dir n = some (.file data)) (hp : (r, env.hash data) ∈ pairs st) (hl : ((pairs st).map (·.2)).Nodup)
    (hfree : get st.dir r = none) (hsp : isSplit n r = false) : get (checkFile env st n).dir r = some (.file data) := by
  obtain ⟨e, he, hn⟩ := pairs_find hp hl
  unfold checkFile
  rw [hg]
  dsimp only
  rw [he]
  dsimp only
  rw [hn, hfree, hsp, if_pos (by rfl)]
  unfold renameFile
  dsimp only
  rw [hg]
  dsimp only
  rw [hfree, hren, if_pos (by rfl)]
  dsimp only
  rw [get_put', if_pos rfl]

theorem loop_gets_name (env : Env) (hren : ∀ a b, env.ren a b = true) (r h : Bytes) (l : List Bytes) : ∀ st : St, l.Nodup → r ∉ l →
    (∀ n ∈ l, ∃ data, get st.dir n = some (.file data)) → ((pairs st).map (·.2)).Nodup → (r, h) ∈ pairs st →
    (∀ h', (r, h') ∈ pairs st → h' = h) →
    ((get st.dir r = none ∧ ∃ n ∈ l, isSplit n r = false ∧ ∃ data, get st.dir n = some (.file data) ∧ env.hash data = h) ∨
      ∃ data, get st.dir r = some (.file data) ∧ env.hash data = h) →
    ∃ data, get (l.foldl (checkFile env) st).dir r = some (.file data) ∧ env.hash data = h := by
  induction l with
  | nil =>
    intro st _ _ _ _ _ _ hcase
    rcases hcase with ⟨_, n, hn, _⟩ | hc
    · exact nomatch hn
    · exact hc
  | cons m l ih =>
    intro st hl hr hf hnd hp hu hcase
    obtain ⟨hml, hl⟩ := List.nodup_cons.mp hl
    rw [List.foldl_cons]
    have hrm : r ≠ m := fun e => hr (e ▸ List.mem_cons_self)
    refine ih (checkFile env st m) hl (fun e => hr (List.mem_cons_of_mem _ e)) (fun n hn => ?_) (by rw [checkFile_pairs]; exact hnd)
      (by rw [checkFile_pairs]; exact hp) (by rw [checkFile_pairs]; exact hu) ?_
    · obtain ⟨data, hd⟩ := hf n (List.mem_cons_of_mem _ hn)
      exact ⟨data, checkFile_other env st m n (fun e => hml (e ▸ hn)) hd⟩
    · rcases hcase with ⟨hfree, n, hn, hsp, data, hg, hh⟩ | ⟨data, hg, hh⟩
      · rcases List.mem_cons.mp hn with e | hn
        · right
          subst e
          exact ⟨data, checkFile_renames env hren st n data r hg (by rw [hh]; exact hp) hnd hfree hsp, hh⟩
        · have hother : get (checkFile env st m).dir n = some (.file data) := checkFile_other env st m n (fun e => hml (e ▸ hn)) hg
          rcases checkFile_cases env st m with hc | ⟨data', r', x, hg', hp', hfr', hx, hc⟩
          · left
            exact ⟨by rw [hc]; exact hfree, n, hn, hsp, data, hother, hh⟩
          · by_cases e : r' = r
            · right
              subst e
              exact ⟨data', by rw [hc, get_put', if_pos rfl, hx], hu _ hp'⟩
            · left
              refine ⟨?_, n, hn, hsp, data, hother, hh⟩
              rw [hc, get_put', if_neg e, get_del]
              split
              · rfl
              · exact hfree
      · right
        exact ⟨data, checkFile_other env st m r hrm hg, hh⟩

theorem afterLoad_pairs (env : Env) (s : St) : pairs (afterLoad env s) = recorded env s := rfl

theorem execFirst_dir {env : Env} {fuel : Nat} {detect : Bool} {st st' s : St} (hs : afterPars env fuel st = some s)
    (h : execFirst env fuel detect st = some st') : st'.dir = ((fileNames s.dir).foldl (checkFile env) (afterLoad env s)).dir := by
  rw [execFirst_eq, hs] at h
  have h : (if detect = true then checkMissing env (checkFiles env (afterLoad env s)) else checkFiles env (afterLoad env s)) = st' := Option.some.inj h
  have e : (checkFiles env (afterLoad env s)).dir = ((fileNames s.dir).foldl (checkFile env) (afterLoad env s)).dir := by
    unfold checkFiles; rw [afterLoad_dir]
  rw [← e, ← h]
  split
  · exact checkMissing_dir env _
  · rfl

/- **A file gets the name which is recorded for its begin**, however it is called: if no entry of the directory has this
name, the name is recorded for no other begin, and the file is not the first fragment of a file of this name. If several
files have the same begin, one of them gets the name. -/
theorem gets_recorded_name (env : Env) (fuel : Nat) (detect : Bool) (st st' s : St) (hd : (names st.dir).Nodup)
    (hs : afterPars env fuel st = some s) (h : execFirst env fuel detect st = some st') (hren : ∀ a b, env.ren a b = true)
    (n data r : Bytes) (hg : get s.dir n = some (.file data)) (hr : (r, env.hash data) ∈ recorded env s)
    (hu : ∀ h', (r, h') ∈ recorded env s → h' = env.hash data) (hfree : get s.dir r = none) (hsp : isSplit n r = false) :
    ∃ data', get st'.dir r = some (.file data') ∧ env.hash data' = env.hash data := by
  have hd2 := (afterPars_same hd hs hd).1
  rw [execFirst_dir hs h]
  refine loop_gets_name env hren r (env.hash data) (fileNames s.dir) (afterLoad env s) (fileNames_nodup hd2) ?_ ?_ ?_ hr hu (Or.inl ?_)
  · intro hm
    obtain ⟨d, h2⟩ := (mem_fileNames hd2 r).mp hm
    rw [hfree] at h2; exact nomatch h2
  · rw [afterLoad_dir]
    exact fun m hm => (mem_fileNames hd2 m).mp hm
  · unfold pairs
    rw [List.map_map]
    exact (afterLoad_inv env s (afterPars_rest hs).2.1).1
  · rw [afterLoad_dir]
    exact ⟨hfree, n, (mem_fileNames hd2 n).mpr ⟨data, hg⟩, hsp, data, hg, rfl⟩

/- ## Files which are not touched -/

theorem renameFile_other {env : Env} {st : St} {src dst m : Bytes} {x : Node} (h1 : m ≠ src) (h2 : m ≠ dst)
    (h : get st.dir m = some x) : get (renameFile env st src dst).dir m = some x := by
  unfold renameFile
  split
  · exact h
  · split
    · dsimp only
      rw [get_put', if_neg (fun e => h2 e.symm), get_del, if_neg (fun e => h1 e.symm)]; exact h
    · exact h

theorem renamePars_other {env : Env} {fuel : Nat} {m data : Bytes} (l : List (Bytes × Bytes)) (hm : ∀ p ∈ l, p.1 ≠ m) : ∀ {st s : St},
    get st.dir m = some (.file data) → renamePars env fuel st l = some s → get s.dir m = some (.file data) := by
  induction l with
  | nil => intro st s h1 h; cases h; exact h1
  | cons p l ih =>
    intro st s h1 h
    rw [renamePars] at h
    split at h
    · exact nomatch h
    · rename_i k hk
      refine ih (fun q hq => hm q (List.mem_cons_of_mem _ hq)) (renameFile_other (fun e => hm p List.mem_cons_self e.symm) (fun e => ?_) h1) h
      have := (freePar_some hk).1
      rw [← e, h1] at this
      exact nomatch this

theorem loop_other (env : Env) (m data : Bytes) (l : List Bytes) : ∀ st : St, get st.dir m = some (.file data) →
    (∀ r, (r, env.hash data) ∉ pairs st) → get (l.foldl (checkFile env) st).dir m = some (.file data) := by
  induction l with
  | nil => intro st h _; exact h
  | cons n l ih =>
    intro st h hp
    rw [List.foldl_cons]
    refine ih _ ?_ (by rw [checkFile_pairs]; exact hp)
    by_cases e : m = n
    · rcases checkFile_cases env st n with hc | ⟨data', r', x, hg', hp', _⟩
      · rw [hc]; exact h
      · rw [← e, h] at hg'
        cases hg'
        exact absurd hp' (hp r')
    · exact checkFile_other env st n m e h

theorem bad_other (env : Env) (m : Bytes) (x : Node) (l : List Bytes) : ∀ st : St, get st.dir m = some x → m ∉ l → (∀ k ∈ l, m ≠ k ++ lit ".bad") →
    get (l.foldl (fun st n => renameFile env st n (n ++ lit ".bad")) st).dir m = some x := by
  induction l with
  | nil => intro st h _ _; exact h
  | cons n l ih =>
    intro st h hm hb
    rw [List.foldl_cons]
    exact ih _ (renameFile_other (fun e => hm (e ▸ List.mem_cons_self)) (hb n List.mem_cons_self) h) (fun e => hm (List.mem_cons_of_mem _ e))
      (fun k hk => hb k (List.mem_cons_of_mem _ hk))

/- **Other files are not touched**: a file without a par2-header, whose begin is described by no file, keeps its name and
its contents; with the renaming of bad par2-files too, if it is not one of these and has not a name which is given to
one. -/
theorem others_untouched (env : Env) (fuel : Nat) (detect : Bool) (st st1 st' s : St) (hd : (names st.dir).Nodup)
    (hs : afterPars env fuel st = some s) (h1 : execFirst env fuel detect st = some st1) (h : execDir env fuel detect st = some st')
    (n data : Bytes) (hg : get st.dir n = some (.file data)) (hid : env.setId data = none)
    (hno : ∀ r, ¬ Describes env s.dir (r, env.hash data)) (hb : ∀ k ∈ st1.bad, n ≠ k ∧ n ≠ k ++ lit ".bad") :
    get st'.dir n = some (.file data) := by
  have g1 : get s.dir n = some (.file data) := by
    unfold afterPars at hs
    split at hs
    · refine renamePars_other (st := { st with hashes := [], bad := [], loaded := [] }) _ (fun p hp e => ?_) hg hs
      obtain ⟨d2, hg2, hid2⟩ := parInfos_file hd hp
      rw [e, hg] at hg2
      cases hg2
      rw [hid] at hid2; exact nomatch hid2
    · cases hs; exact hg
  have g2 : get st1.dir n = some (.file data) := by
    rw [execFirst_dir hs h1]
    refine loop_other env n data _ _ (by rw [afterLoad_dir]; exact g1) (fun r hr => ?_)
    exact hno r (recorded_described env fuel st s hs _ hr)
  unfold execDir at h
  rw [h1] at h
  dsimp only at h
  split at h
  · cases h
    exact bad_other env n _ st1.bad st1 g2 (fun e => (hb n e).1 rfl) (fun k hk => (hb k hk).2)
  · cases h; exact g2

/- ## The search for names ends -/

theorem parDest_inj {id : Bytes} {i j : Nat} (h : parDest id i = parDest id j) : i = j := by
  have h1 := List.append_cancel_left h
  have h2 := List.append_cancel_left h1
  exact pad_inj (List.append_cancel_right h2)

theorem freePar_none {d : Dir} {id : Bytes} : ∀ {f k : Nat}, freePar d id f k = none → ∀ j, k ≤ j → j < k + f → parDest id j ∈ names d := by
  intro f
  induction f with
  | zero => intro k _ j h1 h2; omega
  | succ f ih =>
    intro k h j h1 h2
    rw [freePar] at h
    by_cases hk : isFile (get d (parDest id k)) = true
    · rw [if_pos hk] at h
      by_cases e : j = k
      · rw [e]
        obtain ⟨x, hx⟩ := (isFile_iff _).mp hk
        exact (get_names d _).mpr ⟨_, hx⟩
      · exact ih h j (by omega) (by omega)
    · rw [if_neg hk] at h; exact nomatch h

theorem freePar_ends (d : Dir) (id : Bytes) (fuel : Nat) (hf : d.length < fuel) : ∃ m, freePar d id fuel 1 = some m := by
  cases h : freePar d id fuel 1 with
  | some m => exact ⟨m, rfl⟩
  | none =>
    exfalso
    have hall := freePar_none h
    have hnd : ((List.range (d.length + 1)).map (fun j => parDest id (j + 1))).Nodup := by
      refine List.pairwise_map.mpr ?_
      refine List.Pairwise.imp_of_mem ?_ (List.nodup_range (n := d.length + 1))
      intro i j _ _ hne he
      exact hne (by have := parDest_inj he; omega)
    have hsub : ∀ q ∈ (List.range (d.length + 1)).map (fun j => parDest id (j + 1)), q ∈ names d := by
      intro q hq
      obtain ⟨j, hj, e⟩ := List.mem_map.mp hq
      rw [← e]
      exact hall (j + 1) (by omega) (by have := List.mem_range.mp hj; omega)
    have := hnd.length_le_of_subset hsub
    unfold names at this
    rw [List.length_map, List.length_map, List.length_range] at this
    omega

theorem renamePars_ends (env : Env) (fuel : Nat) (l : List (Bytes × Bytes)) : ∀ st : St, (names st.dir).Nodup → st.dir.length < fuel →
    (∀ p ∈ l, isDir (get st.dir p.1) = false) → ∃ s, renamePars env fuel st l = some s := by
  induction l with
  | nil => intro st _ _ _; exact ⟨st, rfl⟩
  | cons p l ih =>
    intro st hd hf hl
    obtain ⟨m, hm⟩ := freePar_ends st.dir p.2 fuel hf
    have hp := hl p List.mem_cons_self
    rw [renamePars, hm]
    dsimp only
    have hsame := renameFile_same (env := env) (st := st) (src := p.1) (Or.inr ⟨(freePar_some hm).1, hp⟩) hd
    refine ih _ hsame.1 (by rw [← contents_length hsame.2]; exact hf) (fun q hq => renameFile_dir hp (hl q (List.mem_cons_of_mem _ hq)))

/- **The renaming ends** for every directory and whatever the par2-files say: after at most one more try per par2-file
than there are entries. -/
theorem renaming_ends (env : Env) (fuel : Nat) (detect : Bool) (st : St) (hd : (names st.dir).Nodup) (hf : st.dir.length < fuel) :
    ∃ st', execDir env fuel detect st = some st' := by
  have : ∃ s, afterPars env fuel st = some s := by
    unfold afterPars
    split
    · refine renamePars_ends env fuel _ { st with hashes := [], bad := [], loaded := [] } hd hf (fun p hp => ?_)
      obtain ⟨data, hg, _⟩ := parInfos_file hd hp
      dsimp only
      rw [hg]; rfl
    · exact ⟨_, rfl⟩
  obtain ⟨s, hs⟩ := this
  unfold execDir
  rw [execFirst_eq, hs]
  exact ⟨_, rfl⟩

/- ## An example -/

/-- Contents which begin with 1 are a damaged par2-file, with 2 a par2-file which describes two files. -/
def exampleEnv : Env where
  setId data := match data with
    | 1 :: _ => some (lit "t")
    | 2 :: _ => some (lit "s")
    | _ => none
  load data := match data with
    | 1 :: _ => none
    | 2 :: _ => some [some (lit "a.bin", lit "A"), some (lit "b.bin", lit "B"), some (lit "c.bin", lit "C")]
    | _ => none
  hash data := data.take 1
  ren _ _ := true
  ignored n := n == lit "none"
  junk := 0

def start (d : Dir) : St := ⟨d, [], [], [], 0, false, false⟩

def obfuscated : Dir := [(lit "x", .file (lit "A1")), (lit "y", .file (lit "B2")), (lit "p.par2", .file [2]), (lit "z", .file (lit "Z"))]

def obfuscatedDone : Dir := [(lit "b.bin", .file (lit "B2")), (lit "a.bin", .file (lit "A1")), (lit "p.par2", .file [2]), (lit "z", .file (lit "Z"))]

theorem obfuscated_renamed : (execDir exampleEnv 5 true (start obfuscated)).map (fun s => (s.dir, s.missed)) = some (obfuscatedDone, true) := by
  decide +kernel

theorem obfuscated_pars : afterPars exampleEnv 5 (start obfuscated) = some (start obfuscated) := by decide +kernel

def obfuscatedSt : St := ⟨obfuscatedDone, [⟨lit "a.bin", lit "A", true⟩, ⟨lit "b.bin", lit "B", true⟩, ⟨lit "c.bin", lit "C", false⟩], [], [lit "p.par2"], 2, false, true⟩

theorem obfuscated_first : execFirst exampleEnv 5 true (start obfuscated) = some obfuscatedSt := by decide +kernel

theorem obfuscated_all : execDir exampleEnv 5 true (start obfuscated) = some obfuscatedSt := by decide +kernel

theorem obfuscated_recorded : recorded exampleEnv (start obfuscated) = [(lit "a.bin", lit "A"), (lit "b.bin", lit "B"), (lit "c.bin", lit "C")] := by
  decide +kernel

example : (names obfuscatedSt.dir).Nodup ∧ List.Perm (contents obfuscated) (contents obfuscatedSt.dir) :=
  renaming_loses_nothing exampleEnv 5 true (start obfuscated) obfuscatedSt (by decide) obfuscated_first

example : (names obfuscatedSt.dir).Nodup ∧ List.Perm (contents obfuscated) (contents obfuscatedSt.dir) :=
  all_kept_partial exampleEnv 5 true (start obfuscated) obfuscatedSt obfuscatedSt (by decide) obfuscated_first (fun _ h => nomatch h) obfuscated_all

example : obfuscatedSt.missed = true ↔ ∃ e ∈ recorded exampleEnv (start obfuscated), exampleEnv.ignored e.1 = false ∧
    ∀ data, Node.file data ∈ contents obfuscated → exampleEnv.hash data ≠ e.2 :=
  missing_iff exampleEnv 5 (start obfuscated) obfuscatedSt (start obfuscated) (by decide) rfl obfuscated_pars obfuscated_first

example : ∃ data', get obfuscatedSt.dir (lit "a.bin") = some (.file data') ∧ exampleEnv.hash data' = exampleEnv.hash (lit "A1") :=
  gets_recorded_name exampleEnv 5 true (start obfuscated) obfuscatedSt (start obfuscated) (by decide) obfuscated_pars obfuscated_first
    (fun _ _ => rfl) (lit "x") (lit "A1") (lit "a.bin") (by decide) (by rw [obfuscated_recorded]; decide)
    (by
      intro h' hm
      rw [obfuscated_recorded] at hm
      simp only [List.mem_cons, Prod.mk.injEq, List.not_mem_nil, or_false] at hm
      rcases hm with ⟨_, h⟩ | ⟨h, _⟩ | ⟨h, _⟩
      · rw [h]; decide
      · exact absurd h (by decide)
      · exact absurd h (by decide)) (by decide) (by decide +kernel)

theorem obfuscated_describes (p : Bytes × Bytes) (h : Describes exampleEnv obfuscated p) :
    p = (lit "a.bin", lit "A") ∨ p = (lit "b.bin", lit "B") ∨ p = (lit "c.bin", lit "C") := by
  obtain ⟨n, data, l, hg, hl, hp⟩ := h
  have hm := get_mem obfuscated n _ hg
  unfold obfuscated at hm
  simp only [List.mem_cons, Prod.mk.injEq, List.not_mem_nil, or_false, Node.file.injEq] at hm
  have hd : data = [2] ∨ exampleEnv.load data = none := by
    rcases hm with ⟨_, h⟩ | ⟨_, h⟩ | ⟨_, h⟩ | ⟨_, h⟩
    · exact Or.inr (by rw [h]; decide)
    · exact Or.inr (by rw [h]; decide)
    · exact Or.inl h
    · exact Or.inr (by rw [h]; decide)
  rcases hd with h | h
  · rw [h] at hl
    have e : l = [some (lit "a.bin", lit "A"), some (lit "b.bin", lit "B"), some (lit "c.bin", lit "C")] := (Option.some.inj hl).symm
    rw [e] at hp
    simp only [List.mem_cons, Option.some.injEq, List.not_mem_nil, or_false] at hp
    exact hp
  · rw [h] at hl; exact nomatch hl

example : get obfuscatedSt.dir (lit "z") = some (.file (lit "Z")) :=
  others_untouched exampleEnv 5 true (start obfuscated) obfuscatedSt obfuscatedSt (start obfuscated) (by decide) obfuscated_pars obfuscated_first
    obfuscated_all (lit "z") (lit "Z") (by decide) rfl (fun r h => by
      rcases obfuscated_describes _ h with h | h | h
      · exact absurd (Prod.mk.inj h).2 (by decide)
      · exact absurd (Prod.mk.inj h).2 (by decide)
      · exact absurd (Prod.mk.inj h).2 (by decide)) (fun _ h => nomatch h)

example : ∃ st', execDir exampleEnv 5 true (start obfuscated) = some st' := renaming_ends exampleEnv 5 true _ (by decide) (by decide)

/- ## Violations -/

/- **A file is overwritten**: a damaged par2-file gets the extension `.bad` although there is a file of this name. -/
theorem bad_overwrites : ∃ st', execDir exampleEnv 5 true (start [(lit "x", .file (lit "A1")), (lit "p.par2", .file [2]),
      (lit "q.par2", .file [1]), (lit "q.par2.bad", .file (lit "Z"))]) = some st' ∧ Node.file (lit "Z") ∉ contents st'.dir :=
  ⟨⟨[(lit "q.par2.bad", .file [1]), (lit "a.bin", .file (lit "A1")), (lit "p.par2", .file [2])],
    [⟨lit "a.bin", lit "A", true⟩, ⟨lit "b.bin", lit "B", false⟩, ⟨lit "c.bin", lit "C", false⟩], [lit "q.par2"], [lit "p.par2"], 2, true, true⟩,
    by decide +kernel, by decide⟩

/- **A name in use is not freed in time**: the file `x` should be `a.bin`, the file of this name should be `b.bin`. If
`x` comes first it is not renamed, although its name is free at the end; in the other order both get their names. -/
theorem order_matters :
    (execDir exampleEnv 5 true (start [(lit "x", .file (lit "A1")), (lit "a.bin", .file (lit "B2")), (lit "p.par2", .file [2])])).map (·.dir) =
      some [(lit "b.bin", .file (lit "B2")), (lit "x", .file (lit "A1")), (lit "p.par2", .file [2])] ∧
    (execDir exampleEnv 5 true (start [(lit "a.bin", .file (lit "B2")), (lit "x", .file (lit "A1")), (lit "p.par2", .file [2])])).map (·.dir) =
      some [(lit "a.bin", .file (lit "A1")), (lit "b.bin", .file (lit "B2")), (lit "p.par2", .file [2])] := by
  decide +kernel

/- **A directory is renamed** because its name ends with `.par2`. -/
theorem directory_renamed :
    (execDir exampleEnv 5 true (start [(lit "x", .file (lit "A1")), (lit "p.par2", .file [2]), (lit "d.par2", .dir 0)])).map (·.dir) =
      some [(lit "d.par2.bad", .dir 0), (lit "a.bin", .file (lit "A1")), (lit "p.par2", .file [2])] := by
  decide +kernel

end Verif.ParRename
