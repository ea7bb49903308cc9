import Verif.ParRename
import Verif.ScanProps
/-
What the renaming by par2-files does.
-/
namespace Verif.ParRename
open CStr FileName Files RarRename
open Scan (names contents moved get_names)

/- ## One renaming -/

/-- The same contents under different names. -/
def Same (d d' : Dir) : Prop := (names d).Nodup → (names d').Nodup ∧ List.Perm (contents d) (contents d')

theorem Same.refl (d : Dir) : Same d d := fun h => ⟨h, List.Perm.refl _⟩

theorem Same.trans {a b c : Dir} (h : Same a b) (h2 : Same b c) : Same a c := fun hd =>
  ⟨(h2 (h hd).1).1, (h hd).2.trans (h2 (h hd).1).2⟩

theorem renameFile_same {env : Env} {st : St} {src dst : Bytes}
    (h : get st.dir dst = none ∨ (isFile (get st.dir dst) = false ∧ isDir (get st.dir src) = false)) :
    Same st.dir (renameFile env st src dst).dir := by
  intro hd
  unfold renameFile
  cases hs : get st.dir src with
  | none => exact ⟨hd, List.Perm.refl _⟩
  | some x =>
    dsimp only
    by_cases hr : (env.ren src dst && renameOk (get st.dir dst) x) = true
    · rw [if_pos hr]
      have hn : get st.dir dst = none := by
        rcases h with h | ⟨h, h2⟩
        · exact h
        · rw [hs] at h2
          cases hg : get st.dir dst with
          | none => rfl
          | some y =>
            rw [hg] at h hr
            cases x with
            | dir _ => exact nomatch h2
            | file _ =>
              cases y with
              | file _ => exact nomatch h
              | dir _ => simp [renameOk] at hr
      have := moved hd hs hn
      exact ⟨this.1, this.2.1⟩
    · rw [if_neg hr]; exact ⟨hd, List.Perm.refl _⟩

theorem freePar_some {d : Dir} {id n : Bytes} : ∀ {f k : Nat}, freePar d id f k = some n → isFile (get d n) = false ∧ ∃ j, n = parDest id j := by
  intro f
  induction f with
  | zero => intro k h; exact nomatch h
  | succ f ih =>
    intro k h
    rw [freePar] at h
    cases hk : isFile (get d (parDest id k)) with
    | true => rw [hk, if_pos rfl] at h; exact ih h
    | false => rw [hk, if_neg Bool.false_ne_true] at h; cases h; exact ⟨hk, k, rfl⟩

/- What is no directory does not become one. -/
theorem renameFile_dir {env : Env} {st : St} {src dst : Bytes} (hs : isDir (get st.dir src) = false) {n : Bytes}
    (h : isDir (get st.dir n) = false) : isDir (get (renameFile env st src dst).dir n) = false := by
  unfold renameFile
  split
  · exact h
  · rename_i x hx
    split
    · dsimp only
      rw [get_put']
      split
      · rw [← hx]; exact hs
      · rw [get_del]
        split
        · rfl
        · exact h
    · exact h

theorem renamePars_same {env : Env} {fuel : Nat} (l : List (Bytes × Bytes)) : ∀ {st st' : St}, (∀ p ∈ l, isDir (get st.dir p.1) = false) →
    renamePars env fuel st l = some st' → Same st.dir st'.dir := by
  induction l with
  | nil => intro st st' _ h; cases h; exact Same.refl _
  | cons p l ih =>
    intro st st' hl h
    rw [renamePars] at h
    cases hf : freePar st.dir p.2 fuel 1 with
    | none => rw [hf] at h; exact nomatch h
    | some n =>
      rw [hf] at h
      have hp := hl p List.mem_cons_self
      refine (renameFile_same (Or.inr ⟨(freePar_some hf).1, hp⟩)).trans (ih (fun q hq => ?_) h)
      exact renameFile_dir hp (hl q (List.mem_cons_of_mem _ hq))

theorem addSource_dir (par : Bytes) (st : St) (s : Option (Bytes × Bytes)) : (addSource par st s).dir = st.dir := by
  unfold addSource
  split
  · rfl
  · split <;> rfl

theorem addSources_dir (par : Bytes) (l : List (Option (Bytes × Bytes))) : ∀ st : St, (l.foldl (addSource par) st).dir = st.dir := by
  induction l with
  | nil => intro st; rfl
  | cons s l ih => intro st; rw [List.foldl_cons, ih, addSource_dir]

theorem loadPar_dir (env : Env) (st : St) (n : Bytes) : (loadPar env st n).dir = st.dir := by
  unfold loadPar
  split
  · split
    · split
      · rfl
      · rw [addSources_dir]
    · rfl
  · rfl

theorem loadPars_dir (env : Env) (l : List Bytes) : ∀ st : St, (l.foldl (loadPar env) st).dir = st.dir := by
  induction l with
  | nil => intro st; rfl
  | cons s l ih => intro st; rw [List.foldl_cons, ih, loadPar_dir]

theorem loadMain_dir (env : Env) (st : St) : (loadMain env st).dir = st.dir := loadPars_dir env _ st

/-- The body of the loop of `loadExtra`. -/
def extra (env : Env) (st : St) (n : Bytes) : St :=
  if (ParName.parse true (97 :: 47 :: n)).isSome && !st.bad.contains n && !st.loaded.contains n then loadPar env st n else st

theorem loadExtra_eq (env : Env) (st : St) : loadExtra env st = (st.dir.map (·.1)).foldl (extra env) st := rfl

theorem loadExtra_dir (env : Env) (st : St) : (loadExtra env st).dir = st.dir := by
  rw [loadExtra_eq]
  generalize st.dir.map (·.1) = l
  induction l generalizing st with
  | nil => rfl
  | cons n l ih =>
    rw [List.foldl_cons, ih]
    unfold extra
    split
    · exact loadPar_dir env st n
    · rfl

theorem checkFile_same (env : Env) (st : St) (n : Bytes) : Same st.dir (checkFile env st n).dir := by
  unfold checkFile
  split
  · rename_i data hg
    split
    · exact Same.refl _
    · rename_i e _
      dsimp only
      split
      · rename_i hc
        simp only [Bool.and_eq_true, Bool.not_eq_true'] at hc
        exact renameFile_same (st := { st with hashes := setFound (env.hash data) st.hashes }) (Or.inr ⟨hc.1, by dsimp only; rw [hg]; rfl⟩)
      · exact Same.refl _
  · exact Same.refl _

theorem checkLoop_same (env : Env) (l : List Bytes) : ∀ st : St, Same st.dir (l.foldl (checkFile env) st).dir := by
  induction l with
  | nil => intro st; exact Same.refl _
  | cons n l ih => intro st; rw [List.foldl_cons]; exact (checkFile_same env st n).trans (ih _)

theorem checkMissing_dir (env : Env) (st : St) : (checkMissing env st).dir = st.dir := by
  unfold checkMissing; split <;> rfl

theorem parInfos_file {env : Env} {d : Dir} (hd : (names d).Nodup) {p : Bytes × Bytes} (h : p ∈ parInfos env d) :
    ∃ data, get d p.1 = some (.file data) ∧ env.setId data = some p.2 := by
  unfold parInfos at h
  obtain ⟨e, he, h2⟩ := List.mem_filterMap.mp h
  cases hx : e.2 with
  | dir t => rw [hx] at h2; exact nomatch h2
  | file data =>
    rw [hx] at h2
    obtain ⟨i, hi, h3⟩ := Option.map_eq_some_iff.mp h2
    cases h3
    refine ⟨data, ?_, hi⟩
    exact get_of_mem d e.1 _ hd (by rw [← hx]; exact he)

/-- The state before `loadMain`. -/
def afterPars (env : Env) (fuel : Nat) (st : St) : Option St :=
  if needRename env (parInfos env st.dir) then renamePars env fuel { st with hashes := [], bad := [], loaded := [] } (parInfos env st.dir)
  else some { st with hashes := [], bad := [], loaded := [] }

/-- The state before `checkFiles`. -/
def afterLoad (env : Env) (st : St) : St := if (loadMain env st).damaged then loadExtra env (loadMain env st) else loadMain env st

theorem execFirst_eq (env : Env) (fuel : Nat) (detect : Bool) (st : St) : execFirst env fuel detect st =
    (afterPars env fuel st).map (fun s => if detect then checkMissing env (checkFiles env (afterLoad env s)) else checkFiles env (afterLoad env s)) := by
  unfold execFirst afterPars
  dsimp only
  split
  · rename_i h; rw [h]; rfl
  · rename_i s h; rw [h]; rfl

theorem afterLoad_dir (env : Env) (st : St) : (afterLoad env st).dir = st.dir := by
  unfold afterLoad
  split
  · rw [loadExtra_dir, loadMain_dir]
  · exact loadMain_dir env st

theorem afterPars_same {env : Env} {fuel : Nat} {st s : St} (hd : (names st.dir).Nodup) (h : afterPars env fuel st = some s) : Same st.dir s.dir := by
  unfold afterPars at h
  split at h
  · refine renamePars_same (st := { st with hashes := [], bad := [], loaded := [] }) _ (fun p hp => ?_) h
    obtain ⟨data, hg, _⟩ := parInfos_file hd hp
    dsimp only
    rw [hg]; rfl
  · cases h; exact Same.refl _

/- **Renaming by par2-files loses and overwrites nothing**: before the bad par2-files are renamed, whatever the par2-files
say, and whichever renamings fail, the contents of the directory are the same. -/
theorem renaming_loses_nothing (env : Env) (fuel : Nat) (detect : Bool) (st st' : St) (hd : (names st.dir).Nodup)
    (h : execFirst env fuel detect st = some st') : (names st'.dir).Nodup ∧ List.Perm (contents st.dir) (contents st'.dir) := by
  rw [execFirst_eq] at h
  obtain ⟨s, hs, h⟩ := Option.map_eq_some_iff.mp h
  have h1 := afterPars_same hd hs
  have h2 : Same s.dir st'.dir := by
    have hc : Same s.dir (checkFiles env (afterLoad env s)).dir := by
      have := checkLoop_same env (fileNames (afterLoad env s).dir) (afterLoad env s)
      rw [afterLoad_dir] at this
      unfold checkFiles
      rw [afterLoad_dir]
      exact this
    split at h
    · rw [← h, checkMissing_dir]; exact hc
    · rw [← h]; exact hc
  exact (h1.trans h2) hd

/- ## Bad par2-files -/

theorem renameFile_get {env : Env} {st : St} {src dst p : Bytes} (hp : p ≠ dst) (h : get st.dir p = none) :
    get (renameFile env st src dst).dir p = none := by
  unfold renameFile
  split
  · exact h
  · split
    · dsimp only
      rw [get_put', if_neg (fun e => hp e.symm), get_del]
      split
      · rfl
      · exact h
    · exact h

theorem renameFile_bad (env : Env) (st : St) (src dst : Bytes) : (renameFile env st src dst).bad = st.bad := by
  unfold renameFile
  split
  · rfl
  · split <;> rfl

theorem renameFile_gone {env : Env} {st : St} {n : Bytes} (h : get st.dir n = none) (dst : Bytes) : renameFile env st n dst = st := by
  unfold renameFile; rw [h]

/-- The file is not there, and no renaming of the list brings it back. -/
inductive Dead (l : List Bytes) (d : Dir) : Bytes → Prop where
  | intro (m : Bytes) (h : get d m = none) (h2 : ∀ k ∈ l, m = k ++ lit ".bad" → Dead l d k) : Dead l d m

theorem Dead.gone {l : List Bytes} {d : Dir} {m : Bytes} (h : Dead l d m) : get d m = none := by cases h; assumption

theorem dead_step {env : Env} {n : Bytes} {l : List Bytes} {st : St} {m : Bytes} (h : Dead (n :: l) st.dir m) :
    Dead l (renameFile env st n (n ++ lit ".bad")).dir m := by
  induction h with
  | intro m h h2 ih =>
    refine Dead.intro m ?_ (fun k hk e => ih k (List.mem_cons_of_mem _ hk) e)
    by_cases e : m = n ++ lit ".bad"
    · rw [renameFile_gone (h2 n List.mem_cons_self e).gone]; exact h
    · exact renameFile_get e h

theorem bad_ne (n : Bytes) : n ++ lit ".bad" ≠ n := by
  intro e
  have := congrArg List.length e
  rw [List.length_append] at this
  have h2 : (lit ".bad").length = 4 := by decide
  omega

theorem bad_loop_same (env : Env) (l : List Bytes) : ∀ st : St, (∀ n ∈ l, get st.dir (n ++ lit ".bad") = none ∨ Dead l st.dir n) →
    Same st.dir (l.foldl (fun st n => renameFile env st n (n ++ lit ".bad")) st).dir := by
  induction l with
  | nil => intro st _; exact Same.refl _
  | cons n l ih =>
    intro st h
    rw [List.foldl_cons]
    by_cases hg : get st.dir n = none
    · -- nothing to do
      have e := renameFile_gone (env := env) hg (n ++ lit ".bad")
      have ih := ih (renameFile env st n (n ++ lit ".bad"))
      rw [e] at ih ⊢
      refine ih (fun m hm => (h m (List.mem_cons_of_mem _ hm)).imp id (fun hdead => ?_))
      have := dead_step (env := env) hdead
      rw [e] at this; exact this
    · have hn := (h n List.mem_cons_self).resolve_right (fun hdead => hg hdead.gone)
      refine (renameFile_same (Or.inl hn)).trans (ih _ (fun m hm => ?_))
      by_cases e : m = n
      · rw [e]
        by_cases hmoved : get (renameFile env st n (n ++ lit ".bad")).dir n = none
        · right
          refine Dead.intro n hmoved (fun k hk e => ?_)
          rcases h k (List.mem_cons_of_mem _ hk) with h1 | h1
          · rw [← e] at h1; exact absurd h1 hg
          · exact dead_step h1
        · left
          unfold renameFile at hmoved ⊢
          cases hs : get st.dir n with
          | none => exact absurd hs hg
          | some x =>
            rw [hs] at hmoved
            dsimp only at hmoved ⊢
            by_cases hr : (env.ren n (n ++ lit ".bad") && renameOk (get st.dir (n ++ lit ".bad")) x) = true
            · rw [if_pos hr] at hmoved
              dsimp only at hmoved
              rw [get_put', if_neg (bad_ne n), get_del, if_pos rfl] at hmoved
              exact absurd rfl hmoved
            · rw [if_neg hr]; exact hn
      · rcases h m (List.mem_cons_of_mem _ hm) with h1 | h1
        · exact Or.inl (renameFile_get (fun e2 => e (List.append_cancel_right e2)) h1)
        · exact Or.inr (dead_step h1)

/- **Nothing is lost at all** (what is missing: names with `.bad` which are in use already, see below). -/
theorem all_kept_partial (env : Env) (fuel : Nat) (detect : Bool) (st st1 st' : St) (hd : (names st.dir).Nodup)
    (h1 : execFirst env fuel detect st = some st1) (hfree : ∀ n ∈ st1.bad, get st1.dir (n ++ lit ".bad") = none)
    (h : execDir env fuel detect st = some st') : (names st'.dir).Nodup ∧ List.Perm (contents st.dir) (contents st'.dir) := by
  have k1 := renaming_loses_nothing env fuel detect st st1 hd h1
  unfold execDir at h
  rw [h1] at h
  dsimp only at h
  split at h
  · cases h
    have k2 := bad_loop_same env st1.bad st1 (fun n hn => Or.inl (hfree n hn)) k1.1
    exact ⟨k2.1, k1.2.trans k2.2⟩
  · cases h; exact k1

/- ## Missing files -/

theorem setFound_map (h : Bytes) (l : List Entry) : (setFound h l).map (fun e => (e.name, e.hash)) = l.map (fun e => (e.name, e.hash)) := by
  induction l with
  | nil => rfl
  | cons e l ih =>
    rw [setFound]
    split
    · rfl
    · rw [List.map_cons, List.map_cons, ih]

theorem setFound_found (h : Bytes) (l : List Entry) (hl : (l.map (·.hash)).Nodup) :
    setFound h l = l.map (fun e => if e.hash = h then { e with found := true } else e) := by
  induction l with
  | nil => rfl
  | cons e l ih =>
    rw [List.map_cons, List.nodup_cons] at hl
    rw [setFound, List.map_cons]
    by_cases he : e.hash = h
    · rw [if_pos he, if_pos he]
      congr 1
      symm
      rw [List.map_congr_left (g := id)]
      · exact List.map_id _
      · intro f hf
        have : f.hash ≠ h := fun e2 => hl.1 (List.mem_map.mpr ⟨f, hf, by rw [e2, he]⟩)
        rw [if_neg this]; rfl
    · rw [if_neg he, if_neg he, ih hl.2]

/-- The hash of a file. -/
def hashOf (env : Env) (d : Dir) (n : Bytes) : Option Bytes :=
  match get d n with
  | some (.file data) => some (env.hash data)
  | _ => none

theorem renameFile_hashes (env : Env) (st : St) (a b : Bytes) : (renameFile env st a b).hashes = st.hashes := by
  unfold renameFile
  split
  · rfl
  · split <;> rfl

theorem find_none {l : List Entry} {h : Bytes} (hf : l.find? (fun e => e.hash == h) = none) :
    l.map (fun e => if e.hash = h then { e with found := true } else e) = l := by
  rw [List.find?_eq_none] at hf
  rw [List.map_congr_left (g := id)]
  · exact List.map_id _
  · intro e he
    rw [if_neg (fun e2 => hf e he (by rw [e2]; exact beq_self_eq_true h))]; rfl

theorem hashOf_file {env : Env} {d : Dir} {n data : Bytes} (h : get d n = some (.file data)) : hashOf env d n = some (env.hash data) := by
  unfold hashOf; rw [h]

theorem hashOf_other {env : Env} {d : Dir} {n : Bytes} (h : ∀ data, get d n = some (.file data) → False) : hashOf env d n = none := by
  unfold hashOf
  split
  · rename_i data hg; exact (h data hg).elim
  · rfl

theorem checkFile_hashes (env : Env) (st : St) (n : Bytes) (hl : (st.hashes.map (·.hash)).Nodup) : (checkFile env st n).hashes =
    st.hashes.map (fun e => if hashOf env st.dir n = some e.hash then { e with found := true } else e) := by
  unfold checkFile
  split
  · rename_i data hg
    rw [hashOf_file hg]
    have hfun : st.hashes.map (fun e => if some (env.hash data) = some e.hash then { e with found := true } else e) =
        st.hashes.map (fun e => if e.hash = env.hash data then { e with found := true } else e) := by
      apply List.map_congr_left
      intro e _
      by_cases h : e.hash = env.hash data
      · rw [if_pos h, if_pos (by rw [h])]
      · rw [if_neg h, if_neg (fun h2 => h (Option.some.inj h2).symm)]
    split
    · rename_i hf
      rw [hfun, find_none hf]
    · dsimp only
      split
      · rw [renameFile_hashes, hfun, ← setFound_found _ _ hl]
      · rw [hfun, ← setFound_found _ _ hl]
  · rename_i h
    rw [hashOf_other (fun data hg => h data hg)]
    rw [List.map_congr_left (g := id)]
    · exact (List.map_id _).symm
    · intro e _
      rw [if_neg (by simp)]; rfl

/- A renaming to a name which no file has does not change other files. -/
theorem checkFile_other (env : Env) (st : St) (n m : Bytes) (hm : m ≠ n) {x : Node} (hg : get st.dir m = some x) :
    get (checkFile env st n).dir m = some x := by
  unfold checkFile
  split
  · rename_i data hn
    split
    · exact hg
    · rename_i e _
      dsimp only
      split
      · rename_i hc
        simp only [Bool.and_eq_true, Bool.not_eq_true'] at hc
        unfold renameFile
        dsimp only
        rw [hn]
        dsimp only
        split
        · rename_i hr
          dsimp only
          rw [get_put', get_del]
          by_cases he : e.name = m
          · exfalso
            rw [he, hg] at hc hr
            cases x with
            | file _ => exact nomatch hc.1
            | dir _ => simp [renameOk] at hr
          · rw [if_neg he, if_neg (fun e => hm e.symm)]; exact hg
        · exact hg
      · exact hg
  · exact hg

theorem checkLoop_hashes (env : Env) (l : List Bytes) : ∀ st : St, l.Nodup → (st.hashes.map (·.hash)).Nodup →
    (∀ n ∈ l, ∃ data, get st.dir n = some (.file data)) →
    (l.foldl (checkFile env) st).hashes =
      st.hashes.map (fun e => if ∃ n ∈ l, hashOf env st.dir n = some e.hash then { e with found := true } else e) := by
  induction l with
  | nil =>
    intro st _ _ _
    rw [List.map_congr_left (g := id)]
    · exact (List.map_id _).symm
    · intro e _
      rw [if_neg (by simp)]; rfl
  | cons n l ih =>
    intro st hl hh hf
    obtain ⟨hnl, hl⟩ := List.nodup_cons.mp hl
    have hsame : ∀ m ∈ l, hashOf env (checkFile env st n).dir m = hashOf env st.dir m := by
      intro m hm
      obtain ⟨data, hd⟩ := hf m (List.mem_cons_of_mem _ hm)
      unfold hashOf
      rw [checkFile_other env st n m (fun e => hnl (e ▸ hm)) hd, hd]
    have hc := checkFile_hashes env st n hh
    have hh2 : ((checkFile env st n).hashes.map (·.hash)).Nodup := by
      rw [hc, List.map_map]
      have : st.hashes.map ((fun e : Entry => e.hash) ∘ fun e => if hashOf env st.dir n = some e.hash then { e with found := true } else e) = st.hashes.map (·.hash) := by
        apply List.map_congr_left
        intro e _
        dsimp only [Function.comp]
        split <;> rfl
      rw [this]; exact hh
    rw [List.foldl_cons, ih _ hl hh2 (fun m hm => by
      obtain ⟨data, hd⟩ := hf m (List.mem_cons_of_mem _ hm)
      exact ⟨data, checkFile_other env st n m (fun e => hnl (e ▸ hm)) hd⟩), hc, List.map_map]
    apply List.map_congr_left
    intro e _
    dsimp only [Function.comp]
    by_cases h1 : hashOf env st.dir n = some e.hash
    · simp only [if_pos h1]
      rw [if_pos (⟨n, List.mem_cons_self, h1⟩ : ∃ m ∈ n :: l, hashOf env st.dir m = some e.hash)]
      split <;> rfl
    · simp only [if_neg h1]
      by_cases h2 : ∃ m ∈ l, hashOf env st.dir m = some e.hash
      · obtain ⟨m, hm, h3⟩ := h2
        rw [if_pos ⟨m, hm, by rw [hsame m hm]; exact h3⟩, if_pos ⟨m, List.mem_cons_of_mem _ hm, h3⟩]
      · rw [if_neg, if_neg]
        · rintro ⟨m, hm, h3⟩
          rcases List.mem_cons.mp hm with e2 | hm
          · exact h1 (e2 ▸ h3)
          · exact h2 ⟨m, hm, h3⟩
        · rintro ⟨m, hm, h3⟩
          exact h2 ⟨m, hm, by rw [← hsame m hm]; exact h3⟩

theorem addSource_inv (par : Bytes) (st : St) (s : Option (Bytes × Bytes)) (h : (st.hashes.map (·.hash)).Nodup ∧ ∀ e ∈ st.hashes, e.found = false) :
    ((addSource par st s).hashes.map (·.hash)).Nodup ∧ ∀ e ∈ (addSource par st s).hashes, e.found = false := by
  unfold addSource
  split
  · exact h
  · rename_i name hash
    split
    · exact h
    · rename_i hno
      constructor
      · dsimp only
        rw [List.map_append, List.nodup_append]
        refine ⟨h.1, by simp, ?_⟩
        intro a ha b hb e
        have hb := List.mem_singleton.mp hb
        obtain ⟨f, hf, hfa⟩ := List.mem_map.mp ha
        refine hno (List.any_eq_true.mpr ⟨f, hf, ?_⟩)
        have : f.hash = hash := by rw [hfa, e, hb]
        rw [this]; exact beq_self_eq_true _
      · intro e he
        rcases List.mem_append.mp he with he | he
        · exact h.2 e he
        · rw [List.mem_singleton.mp he]

theorem loadPar_inv (env : Env) (st : St) (n : Bytes) (h : (st.hashes.map (·.hash)).Nodup ∧ ∀ e ∈ st.hashes, e.found = false) :
    ((loadPar env st n).hashes.map (·.hash)).Nodup ∧ ∀ e ∈ (loadPar env st n).hashes, e.found = false := by
  have key : ∀ (l : List (Option (Bytes × Bytes))) (st : St), ((st.hashes.map (·.hash)).Nodup ∧ ∀ e ∈ st.hashes, e.found = false) →
      (((l.foldl (addSource n) st).hashes.map (·.hash)).Nodup ∧ ∀ e ∈ (l.foldl (addSource n) st).hashes, e.found = false) := by
    intro l
    induction l with
    | nil => intro st h; exact h
    | cons s l ih => intro st h; rw [List.foldl_cons]; exact ih _ (addSource_inv n st s h)
  unfold loadPar
  split
  · split
    · split
      · exact h
      · exact key _ _ h
    · exact h
  · exact h

theorem afterLoad_inv (env : Env) (st : St) (h : st.hashes = []) :
    ((afterLoad env st).hashes.map (·.hash)).Nodup ∧ ∀ e ∈ (afterLoad env st).hashes, e.found = false := by
  have h0 : (st.hashes.map (·.hash)).Nodup ∧ ∀ e ∈ st.hashes, e.found = false := by rw [h]; exact ⟨List.nodup_nil, fun _ h => nomatch h⟩
  have k1 : ∀ (l : List Bytes) (st : St), ((st.hashes.map (·.hash)).Nodup ∧ ∀ e ∈ st.hashes, e.found = false) →
      (((l.foldl (loadPar env) st).hashes.map (·.hash)).Nodup ∧ ∀ e ∈ (l.foldl (loadPar env) st).hashes, e.found = false) := by
    intro l
    induction l with
    | nil => intro st h; exact h
    | cons s l ih => intro st h; rw [List.foldl_cons]; exact ih _ (loadPar_inv env st s h)
  have k2 : ∀ (l : List Bytes) (st : St), ((st.hashes.map (·.hash)).Nodup ∧ ∀ e ∈ st.hashes, e.found = false) →
      (((l.foldl (extra env) st).hashes.map (·.hash)).Nodup ∧ ∀ e ∈ (l.foldl (extra env) st).hashes, e.found = false) := by
    intro l
    induction l with
    | nil => intro st h; exact h
    | cons s l ih =>
      intro st h
      rw [List.foldl_cons]
      refine ih _ ?_
      unfold extra
      split
      · exact loadPar_inv env st s h
      · exact h
  unfold afterLoad
  split
  · rw [loadExtra_eq]; exact k2 _ _ (k1 _ _ h0)
  · exact k1 _ _ h0

theorem mem_fileNames {d : Dir} (hd : (names d).Nodup) (n : Bytes) : n ∈ fileNames d ↔ ∃ data, get d n = some (.file data) := by
  unfold fileNames
  rw [List.mem_map]
  constructor
  · rintro ⟨e, he, rfl⟩
    obtain ⟨h1, h2⟩ := List.mem_filter.mp he
    obtain ⟨data, h3⟩ := (isFile_iff _).mp h2
    exact ⟨data, get_of_mem d e.1 _ hd (by rw [← Option.some.inj h3]; exact h1)⟩
  · rintro ⟨data, h⟩
    exact ⟨(n, .file data), List.mem_filter.mpr ⟨get_mem d n _ h, rfl⟩, rfl⟩

theorem fileNames_nodup {d : Dir} (hd : (names d).Nodup) : (fileNames d).Nodup := (List.filter_sublist.map _).nodup hd

open Classical in
/-- What is found: exactly the recorded files whose first 16 KiB are those of a file in the directory. -/
theorem checkFiles_hashes (env : Env) (st : St) (hd : (names st.dir).Nodup) (hl : (st.hashes.map (·.hash)).Nodup) :
    (checkFiles env st).hashes =
      st.hashes.map (fun e => if ∃ n data, get st.dir n = some (.file data) ∧ env.hash data = e.hash then { e with found := true } else e) := by
  unfold checkFiles
  rw [checkLoop_hashes env _ st (fileNames_nodup hd) hl (fun n hn => (mem_fileNames hd n).mp hn)]
  apply List.map_congr_left
  intro e _
  have hiff : (∃ n ∈ fileNames st.dir, hashOf env st.dir n = some e.hash) ↔ ∃ n data, get st.dir n = some (.file data) ∧ env.hash data = e.hash := by
    constructor
    · rintro ⟨n, hn, h⟩
      obtain ⟨data, hg⟩ := (mem_fileNames hd n).mp hn
      unfold hashOf at h
      rw [hg] at h
      exact ⟨n, data, hg, Option.some.inj h⟩
    · rintro ⟨n, data, hg, h⟩
      refine ⟨n, (mem_fileNames hd n).mpr ⟨data, hg⟩, ?_⟩
      unfold hashOf
      rw [hg, ← h]
  by_cases h : ∃ n ∈ fileNames st.dir, hashOf env st.dir n = some e.hash
  · rw [if_pos h, if_pos (hiff.mp h)]
  · rw [if_neg h, if_neg (fun h2 => h (hiff.mpr h2))]

theorem renameFile_missed (env : Env) (st : St) (a b : Bytes) : (renameFile env st a b).missed = st.missed := by
  unfold renameFile
  split
  · rfl
  · split <;> rfl

theorem renamePars_rest {env : Env} {fuel : Nat} (l : List (Bytes × Bytes)) : ∀ {st s : St}, renamePars env fuel st l = some s →
    s.missed = st.missed ∧ s.hashes = st.hashes ∧ s.bad = st.bad := by
  induction l with
  | nil => intro st s h; cases h; exact ⟨rfl, rfl, rfl⟩
  | cons p l ih =>
    intro st s h
    rw [renamePars] at h
    split at h
    · exact nomatch h
    · obtain ⟨h1, h2, h3⟩ := ih h
      exact ⟨by rw [h1, renameFile_missed], by rw [h2, renameFile_hashes], by rw [h3, renameFile_bad]⟩

theorem afterPars_rest {env : Env} {fuel : Nat} {st s : St} (h : afterPars env fuel st = some s) :
    s.missed = st.missed ∧ s.hashes = [] ∧ s.bad = [] := by
  unfold afterPars at h
  split at h
  · exact renamePars_rest _ h
  · cases h; exact ⟨rfl, rfl, rfl⟩

theorem loadPar_missed (env : Env) (st : St) (n : Bytes) : (loadPar env st n).missed = st.missed := by
  have key : ∀ (l : List (Option (Bytes × Bytes))) (st : St), (l.foldl (addSource n) st).missed = st.missed := by
    intro l
    induction l with
    | nil => intro st; rfl
    | cons s l ih =>
      intro st
      rw [List.foldl_cons, ih]
      unfold addSource
      split
      · rfl
      · split <;> rfl
  unfold loadPar
  split
  · split
    · split
      · rfl
      · rw [key]
    · rfl
  · rfl

theorem afterLoad_missed (env : Env) (st : St) : (afterLoad env st).missed = st.missed := by
  have k1 : ∀ (l : List Bytes) (st : St), (l.foldl (loadPar env) st).missed = st.missed := by
    intro l
    induction l with
    | nil => intro st; rfl
    | cons s l ih => intro st; rw [List.foldl_cons, ih, loadPar_missed]
  have k2 : ∀ (l : List Bytes) (st : St), (l.foldl (extra env) st).missed = st.missed := by
    intro l
    induction l with
    | nil => intro st; rfl
    | cons s l ih =>
      intro st
      rw [List.foldl_cons, ih]
      unfold extra
      split
      · exact loadPar_missed env st s
      · rfl
  unfold afterLoad
  split
  · rw [loadExtra_eq, k2]; exact k1 _ _
  · exact k1 _ _

theorem checkFile_missed (env : Env) (st : St) (n : Bytes) : (checkFile env st n).missed = st.missed := by
  unfold checkFile
  split
  · split
    · rfl
    · dsimp only
      split
      · rw [renameFile_missed]
      · rfl
  · rfl

theorem checkFiles_missed (env : Env) (st : St) : (checkFiles env st).missed = st.missed := by
  unfold checkFiles
  generalize fileNames st.dir = l
  induction l generalizing st with
  | nil => rfl
  | cons n l ih => rw [List.foldl_cons, ih, checkFile_missed]

theorem mem_contents {d : Dir} (hd : (names d).Nodup) (x : Node) : x ∈ contents d ↔ ∃ n, get d n = some x := by
  unfold contents
  rw [List.mem_map]
  constructor
  · rintro ⟨e, he, rfl⟩; exact ⟨e.1, get_of_mem d e.1 _ hd he⟩
  · rintro ⟨n, h⟩; exact ⟨(n, x), get_mem d n x h, rfl⟩

/-- The files which the par2-files of the directory describe, each with its name and the hash of its begin: read after
the par2-files were renamed (`s`). -/
def recorded (env : Env) (s : St) : List (Bytes × Bytes) := (afterLoad env s).hashes.map (fun e => (e.name, e.hash))

/- **A download is reported as incomplete exactly if a file is missing**: a file which is described by a par2-file, whose
extension is not to be ignored, and no file of the directory, whatever its name, has its begin. -/
theorem missing_iff (env : Env) (fuel : Nat) (st st' s : St) (hd : (names st.dir).Nodup) (hm : st.missed = false)
    (hs : afterPars env fuel st = some s) (h : execFirst env fuel true st = some st') :
    st'.missed = true ↔ ∃ e ∈ recorded env s, env.ignored e.1 = false ∧
      ∀ data, Node.file data ∈ contents st.dir → env.hash data ≠ e.2 := by
  obtain ⟨r1, r2, _⟩ := afterPars_rest hs
  obtain ⟨hd2, hp⟩ := afterPars_same hd hs hd
  obtain ⟨i1, i2⟩ := afterLoad_inv env s r2
  rw [execFirst_eq, hs] at h
  have h : checkMissing env (checkFiles env (afterLoad env s)) = st' := Option.some.inj h
  have hf : (checkFiles env (afterLoad env s)).missed = false := by rw [checkFiles_missed, afterLoad_missed, r1, hm]
  have hh := checkFiles_hashes env (afterLoad env s) (by rw [afterLoad_dir]; exact hd2) i1
  have hmiss : st'.missed = (checkFiles env (afterLoad env s)).hashes.any (fun e => !e.found && !env.ignored e.name) := by
    rw [← h]
    unfold checkMissing
    split
    · rename_i ha; rw [ha]
    · rename_i ha
      rw [hf]
      cases hb : (checkFiles env (afterLoad env s)).hashes.any (fun e => !e.found && !env.ignored e.name) with
      | false => rfl
      | true => exact absurd hb ha
  rw [hmiss, hh, List.any_map, List.any_eq_true]
  have hex : ∀ e : Entry, (∃ n data, get (afterLoad env s).dir n = some (.file data) ∧ env.hash data = e.hash) ↔
      ∃ data, Node.file data ∈ contents st.dir ∧ env.hash data = e.hash := by
    intro e
    rw [afterLoad_dir]
    constructor
    · rintro ⟨n, data, h1, h2⟩
      exact ⟨data, hp.mem_iff.mpr ((mem_contents hd2 _).mpr ⟨n, h1⟩), h2⟩
    · rintro ⟨data, h1, h2⟩
      obtain ⟨n, h3⟩ := (mem_contents hd2 _).mp (hp.mem_iff.mp h1)
      exact ⟨n, data, h3, h2⟩
  unfold recorded
  constructor
  · rintro ⟨e, he, h2⟩
    dsimp only [Function.comp] at h2
    by_cases hx : ∃ n data, get (afterLoad env s).dir n = some (.file data) ∧ env.hash data = e.hash
    · rw [if_pos hx] at h2; exact nomatch h2
    · rw [if_neg hx] at h2
      simp only [Bool.and_eq_true, Bool.not_eq_true'] at h2
      exact ⟨_, List.mem_map.mpr ⟨e, he, rfl⟩, h2.2, fun data h3 h4 => hx ((hex e).mpr ⟨data, h3, h4⟩)⟩
  · rintro ⟨p, hp2, h2, h3⟩
    obtain ⟨e, he, rfl⟩ := List.mem_map.mp hp2
    refine ⟨e, he, ?_⟩
    dsimp only [Function.comp]
    have hx : ¬ ∃ n data, get (afterLoad env s).dir n = some (.file data) ∧ env.hash data = e.hash := by
      intro hx
      obtain ⟨data, h4, h5⟩ := (hex e).mp hx
      exact h3 data h4 h5
    rw [if_neg hx, i2 e he, h2]
    rfl

end Verif.ParRename
