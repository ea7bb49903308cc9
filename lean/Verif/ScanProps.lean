import Verif.Scan
import Verif.RarRenameNames
/-
What happens with incoming nzb-files.
-/
namespace Verif.Scan
open CStr FileName Files RarRename

/- ## Specification -/

/-- The files which are added to the queue: not hidden, with the extension nzb or nzb_processed in any case. -/
def Due (n : Bytes) : Prop :=
  n.head? ≠ some 46 ∧ ∃ a e, n = a ++ 46 :: e ∧ 46 ∉ e ∧
    (e.map WildMask.lower = lit "nzb" ∨ e.map WildMask.lower = lit "nzb_processed")

/-- The names of a directory. -/
def names (d : Dir) : List Bytes := d.map (·.1)

/-- The contents of a directory. -/
def contents (d : Dir) : List Node := d.map (·.2)

/-- The mark on a file after processing. -/
def mark (ok : Bool) : Bytes := if ok then lit "queued" else lit "error"

/- ## Lemmas -/

theorem ext_append (a e : Bytes) (h : 46 ∉ e) : ext (a ++ 46 :: e) = some (46 :: e.map WildMask.lower) := by
  unfold ext
  rw [lastIdx_append a h]
  dsimp only
  rw [List.drop_left]
  rfl

theorem ext_some {n x : Bytes} (h : ext n = some x) : ∃ a e, n = a ++ 46 :: e ∧ 46 ∉ e ∧ x = 46 :: e.map WildMask.lower := by
  unfold ext at h
  cases hl : lastIdx 46 n with
  | none => rw [hl] at h; exact nomatch h
  | some i =>
    obtain ⟨a, e, h1, h2, h3⟩ := lastIdx_some hl
    refine ⟨a, e, h1, h3, ?_⟩
    rw [hl] at h
    dsimp only at h
    rw [h1, ← h2, List.drop_left] at h
    exact (Option.some.inj h).symm

theorem due_iff (n : Bytes) : Due n ↔ n.head? ≠ some 46 ∧ (ext n = some (lit ".nzb") ∨ ext n = some (lit ".nzb_processed")) := by
  constructor
  · rintro ⟨h0, a, e, rfl, h1, h2⟩
    refine ⟨h0, ?_⟩
    rw [ext_append a e h1]
    rcases h2 with h2 | h2
    · left; rw [h2]; decide
    · right; rw [h2]; decide
  · rintro ⟨h0, h⟩
    refine ⟨h0, ?_⟩
    rcases h with h | h
    · obtain ⟨a, e, h1, h2, h3⟩ := ext_some h
      exact ⟨a, e, h1, h2, Or.inl (List.cons.inj h3).2.symm⟩
    · obtain ⟨a, e, h1, h2, h3⟩ := ext_some h
      exact ⟨a, e, h1, h2, Or.inr (List.cons.inj h3).2.symm⟩

instance (n : Bytes) : Decidable (Due n) := decidable_of_iff _ (due_iff n).symm

theorem due_not_excluded {n : Bytes} (h : Due n) : excluded n = false := by
  obtain ⟨_, h⟩ := (due_iff n).mp h
  unfold excluded
  rcases h with h | h
  · rw [h]; decide
  · rw [h]; decide

theorem bak_form (name part : Bytes) (k : Nat) : ∃ a, bakName name part k = name ++ (a ++ 46 :: part) := by
  unfold bakName
  by_cases h : k = 0
  · rw [if_pos h]; exact ⟨[], rfl⟩
  · rw [if_neg h]
    exact ⟨46 :: dec (k + 1), rfl⟩

theorem bak_ext (name part : Bytes) (k : Nat) (h : 46 ∉ part) :
    ext (bakName name part k) = some (46 :: part.map WildMask.lower) := by
  obtain ⟨a, e⟩ := bak_form name part k
  rw [e, ← List.append_assoc, ext_append _ _ h]

theorem renameBak_some {d : Dir} {name part m : Bytes} : ∀ {f k : Nat}, renameBak d name part f k = some m →
    get d m = none ∧ ∃ j, m = bakName name part j := by
  intro f
  induction f with
  | zero => intro k h; exact nomatch h
  | succ f ih =>
    intro k h
    rw [renameBak] at h
    by_cases hk : (get d (bakName name part k)).isSome = true
    · rw [if_pos hk] at h; exact ih h
    · rw [if_neg hk] at h
      cases h
      refine ⟨?_, k, rfl⟩
      cases hg : get d (bakName name part k) with
      | none => rfl
      | some x => rw [hg] at hk; exact absurd rfl hk

/- Moving an entry to a free name. -/
theorem moved {d : Dir} {n m : Bytes} {x : Node} (hd : (names d).Nodup) (hn : get d n = some x) (hm : get d m = none) :
    (names (put (del d n) m x)).Nodup ∧ List.Perm (contents d) (contents (put (del d n) m x)) ∧
    (∀ p, p ≠ n → p ≠ m → get (put (del d n) m x) p = get d p) ∧ get (put (del d n) m x) n = none ∧
    get (put (del d n) m x) m = some x ∧ m ≠ n := by
  have hne : m ≠ n := fun e => by rw [e, hn] at hm; exact nomatch hm
  have hdn : get (del d n) m = none := by rw [get_del, if_neg (fun e => hne e.symm)]; exact hm
  have e : put (del d n) m x = (m, x) :: del d n := by unfold put; rw [del_none _ _ hdn]
  refine ⟨?_, ?_, ?_, ?_, ?_, hne⟩
  · unfold names
    rw [e, List.map_cons, List.nodup_cons]
    exact ⟨(get_none_iff _ _).mp hdn, del_nodup _ _ hd⟩
  · unfold contents
    rw [e, List.map_cons]
    exact del_perm d n x hd hn
  · intro p h1 h2
    rw [get_put', if_neg (fun h => h2 h.symm), get_del, if_neg (fun h => h1 h.symm)]
  · rw [get_put', if_neg hne, get_del, if_pos rfl]
  · rw [get_put', if_pos rfl]

/- ## Nothing is lost -/

theorem addFile_keeps {parse ren : Bytes → Bool} {fuel : Nat} {st st' : St} {n : Bytes} (hd : (names st.dir).Nodup)
    (h : addFile parse ren fuel st n = some st') : (names st'.dir).Nodup ∧ List.Perm (contents st.dir) (contents st'.dir) := by
  unfold addFile at h
  split at h
  · rename_i data hg
    split at h
    · exact nomatch h
    · rename_i m hr
      split at h
      · cases h
        have := moved hd hg (renameBak_some hr).1
        exact ⟨this.1, this.2.1⟩
      · cases h; exact ⟨hd, List.Perm.refl _⟩
  · cases h; exact ⟨hd, List.Perm.refl _⟩

theorem process_keeps {parse ren : Bytes → Bool} {fuel : Nat} {st st' : St} {n : Bytes} (hd : (names st.dir).Nodup)
    (h : process parse ren fuel st n = some st') : (names st'.dir).Nodup ∧ List.Perm (contents st.dir) (contents st'.dir) := by
  unfold process at h
  split at h
  · split at h
    · rename_i data hg
      split at h
      · exact nomatch h
      · rename_i m hr
        split at h
        · have h1 := moved hd hg (renameBak_some hr).1
          have h2 := addFile_keeps (st := { st with dir := put (del st.dir n) m (.file data) }) h1.1 h
          exact ⟨h2.1, h1.2.1.trans h2.2⟩
        · cases h; exact ⟨hd, List.Perm.refl _⟩
    · cases h; exact ⟨hd, List.Perm.refl _⟩
  · split at h
    · exact addFile_keeps hd h
    · cases h; exact ⟨hd, List.Perm.refl _⟩

/- **No incoming file is lost or overwritten**: whatever the files contain and whichever renamings fail, after a scan
the directory has the same contents under different names. -/
theorem scan_loses_nothing (parse ren : Bytes → Bool) (fuel : Nat) (l : List Bytes) : ∀ (st st' : St),
    (names st.dir).Nodup → scanDir parse ren fuel st l = some st' →
    (names st'.dir).Nodup ∧ List.Perm (contents st.dir) (contents st'.dir) := by
  induction l with
  | nil => intro st st' hd h; cases h; exact ⟨hd, List.Perm.refl _⟩
  | cons n l ih =>
    intro st st' hd h
    rw [scanDir] at h
    split at h
    · exact ih _ _ hd h
    · split at h
      · split at h
        · exact nomatch h
        · rename_i st1 hp
          have h1 := process_keeps hd hp
          have h2 := ih _ _ h1.1 h
          exact ⟨h2.1, h1.2.trans h2.2⟩
      · exact ih _ _ hd h

/- ## Each file once -/

theorem mark_no_dot (b : Bool) : 46 ∉ mark b := by cases b <;> decide

theorem mark_ext (b : Bool) : some (46 :: (mark b).map WildMask.lower) = some (if b then lit ".queued" else lit ".error") := by
  cases b <;> decide

/-- What processing of a due file does. -/
structure Done (parse : Bytes → Bool) (st st' : St) (n data m nm : Bytes) : Prop where
  nodup : (names st'.dir).Nodup
  added : st'.added = st.added ++ [⟨nm, data, parse data⟩]
  free : get st.dir m = none
  gone : get st'.dir n = none
  at_ : get st'.dir m = some (.file data)
  others : ∀ p, p ≠ n → p ≠ m → get st'.dir p = get st.dir p
  named : ext m = some (if parse data then lit ".queued" else lit ".error")

theorem lit_mark (b : Bool) : lit (if b then "queued" else "error") = mark b := by cases b <;> rfl

theorem addFile_done {parse : Bytes → Bool} {fuel : Nat} {st st' : St} {n data : Bytes} (hd : (names st.dir).Nodup)
    (hg : get st.dir n = some (.file data)) (h : addFile parse (fun _ => true) fuel st n = some st') :
    ∃ m, Done parse st st' n data m n := by
  unfold addFile at h
  rw [hg] at h
  dsimp only at h
  rw [lit_mark] at h
  cases hr : renameBak st.dir n (mark (parse data)) fuel 0 with
  | none => rw [hr] at h; exact nomatch h
  | some m =>
    rw [hr] at h
    dsimp only at h
    rw [if_pos rfl] at h
    cases h
    obtain ⟨h1, j, h2⟩ := renameBak_some hr
    obtain ⟨m1, _, m3, m4, m5, m6⟩ := moved hd hg h1
    refine ⟨m, m1, rfl, h1, m4, m5, m3, ?_⟩
    rw [h2, bak_ext _ _ _ (mark_no_dot _), mark_ext]

theorem process_done {parse : Bytes → Bool} {fuel : Nat} {st st' : St} {n data : Bytes} (hd : (names st.dir).Nodup)
    (hn : Due n) (hg : get st.dir n = some (.file data)) (h : process parse (fun _ => true) fuel st n = some st') :
    ∃ m nm, Done parse st st' n data m nm := by
  obtain ⟨_, he⟩ := (due_iff n).mp hn
  unfold process at h
  by_cases h1 : ext n = some (lit ".nzb_processed")
  · rw [if_pos h1, hg] at h
    dsimp only at h
    cases hr : renameBak st.dir (stem n) (lit "nzb") fuel 0 with
    | none => rw [hr] at h; exact nomatch h
    | some k =>
      rw [hr] at h
      dsimp only at h
      rw [if_pos rfl] at h
      obtain ⟨r1, j, r2⟩ := renameBak_some hr
      obtain ⟨m1, _, m3, m4, m5, m6⟩ := moved hd hg r1
      obtain ⟨m, D⟩ := addFile_done (st := { st with dir := put (del st.dir n) k (.file data) }) m1 m5 h
      have hmk : m ≠ k := fun e => by
        have := D.free
        dsimp only at this
        rw [e, m5] at this; exact nomatch this
      have hmn : m ≠ n := fun e => by
        have := D.named
        rw [e, h1] at this
        cases hp : parse data with
        | true => rw [hp] at this; exact absurd this (by decide)
        | false => rw [hp] at this; exact absurd this (by decide)
      refine ⟨m, k, D.nodup, D.added, ?_, ?_, D.at_, ?_, D.named⟩
      · rw [← m3 m hmn hmk]; exact D.free
      · rw [D.others n (fun e => m6 e.symm) (fun e => hmn e.symm)]; exact m4
      · intro p h1 h2
        by_cases hpk : p = k
        · rw [hpk, D.gone, r1]
        · rw [D.others p hpk h2]; exact m3 p h1 hpk
  · have h2 : ext n = some (lit ".nzb") := he.resolve_right h1
    rw [if_neg h1, if_pos h2] at h
    obtain ⟨m, D⟩ := addFile_done hd hg h
    exact ⟨m, n, D⟩

theorem process_other {parse ren : Bytes → Bool} {fuel : Nat} {st : St} {n : Bytes} (hh : n.head? ≠ some 46) (hn : ¬ Due n) :
    process parse ren fuel st n = some st := by
  unfold process
  rw [if_neg (fun e => hn ((due_iff n).mpr ⟨hh, Or.inr e⟩)), if_neg (fun e => hn ((due_iff n).mpr ⟨hh, Or.inl e⟩))]

theorem scanDir_other {parse ren : Bytes → Bool} {fuel : Nat} {st : St} {n : Bytes} {l : List Bytes}
    (h : ¬ Due n ∨ isDir (get st.dir n) = true) : scanDir parse ren fuel st (n :: l) = scanDir parse ren fuel st l := by
  rw [scanDir]
  by_cases h1 : n.head? = some 46
  · rw [if_pos h1]
  · rw [if_neg h1]
    by_cases h2 : (!isDir (get st.dir n) && !excluded n) = true
    · rw [if_pos h2]
      rcases h with h | h
      · rw [process_other h1 h]
      · rw [h] at h2; exact nomatch h2
    · rw [if_neg h2]

/-- What is added for a name: the contents and whether they could be read. -/
def wanted (parse : Bytes → Bool) (d : Dir) (n : Bytes) : Option (Bytes × Bool) :=
  match get d n with
  | some (.file data) => if Due n then some (data, parse data) else none
  | _ => none

theorem wanted_congr {parse : Bytes → Bool} {d d' : Dir} {l : List Bytes} (h : ∀ n ∈ l, get d n = get d' n) :
    l.filterMap (wanted parse d) = l.filterMap (wanted parse d') := by
  induction l with
  | nil => rfl
  | cons n l ih =>
    have h1 : wanted parse d n = wanted parse d' n := by unfold wanted; rw [h n List.mem_cons_self]
    rw [List.filterMap_cons, List.filterMap_cons, h1, ih (fun m hm => h m (List.mem_cons_of_mem _ hm))]

theorem queued_not_due {m : Bytes} {b : Bool} (h : ext m = some (if b then lit ".queued" else lit ".error")) : ¬ Due m := by
  intro h2
  obtain ⟨_, h2⟩ := (due_iff m).mp h2
  rw [h] at h2
  cases b with
  | true => exact absurd h2 (by decide)
  | false => exact absurd h2 (by decide)

theorem scanDir_spec (parse : Bytes → Bool) (fuel : Nat) (l : List Bytes) : ∀ (st st' : St), (names st.dir).Nodup → l.Nodup →
    (∀ n ∈ l, ∃ x, get st.dir n = some x) → scanDir parse (fun _ => true) fuel st l = some st' →
    (st'.added.map (fun a => (a.data, a.ok)) = st.added.map (fun a => (a.data, a.ok)) ++ l.filterMap (wanted parse st.dir)) ∧
    (∀ p x, (¬ Due p ∨ isDir (some x) = true ∨ p ∉ l) → get st.dir p = some x → get st'.dir p = some x) ∧
    (∀ p, Due p → isFile (get st'.dir p) = true → isFile (get st.dir p) = true ∧ p ∉ l) ∧
    (∀ n ∈ l, ∀ data, Due n → get st.dir n = some (.file data) →
      ∃ m, ext m = some (if parse data then lit ".queued" else lit ".error") ∧ get st'.dir m = some (.file data)) := by
  induction l with
  | nil =>
    intro st st' _ _ _ h
    cases h
    exact ⟨by rw [List.filterMap_nil, List.append_nil], fun _ _ _ h => h, fun _ _ h => ⟨h, (fun h => nomatch h)⟩, fun _ h => nomatch h⟩
  | cons n l ih =>
    intro st st' hd hl hex h
    obtain ⟨hnl, hl⟩ := List.nodup_cons.mp hl
    obtain ⟨x, hx⟩ := hex n List.mem_cons_self
    by_cases hdue : Due n ∧ ∃ data, x = .file data
    · obtain ⟨hdue, data, rfl⟩ := hdue
      rw [scanDir, if_neg hdue.1, hx, due_not_excluded hdue, if_pos (by rfl)] at h
      cases hp : process parse (fun _ => true) fuel st n with
      | none => rw [hp] at h; exact nomatch h
      | some st1 =>
        rw [hp] at h
        dsimp only at h
        obtain ⟨m, nm, D⟩ := process_done hd hdue hx hp
        have hml : m ∉ l := fun hm => by
          obtain ⟨y, hy⟩ := hex m (List.mem_cons_of_mem _ hm)
          rw [D.free] at hy; exact nomatch hy
        have hsame : ∀ p ∈ l, get st.dir p = get st1.dir p := fun p hp =>
          (D.others p (fun e => hnl (e ▸ hp)) (fun e => hml (e ▸ hp))).symm
        obtain ⟨i1, i2, i3, i4⟩ := ih st1 st' D.nodup hl (fun p hp => by rw [← hsame p hp]; exact hex p (List.mem_cons_of_mem _ hp)) h
        refine ⟨?_, ?_, ?_, ?_⟩
        · rw [i1, D.added, List.map_append, List.append_assoc, List.filterMap_cons]
          have : wanted parse st.dir n = some (data, parse data) := by
            unfold wanted; rw [hx]; dsimp only; rw [if_pos hdue]
          rw [this, wanted_congr hsame]
          rfl
        · intro p y hc hy
          have hpm : p ≠ m := fun e => by rw [e, D.free] at hy; exact nomatch hy
          have hpn : p ≠ n := fun e => by
            rcases hc with hc | hc | hc
            · exact hc (e ▸ hdue)
            · rw [e, hx] at hy; cases hy; exact nomatch hc
            · exact hc (e ▸ List.mem_cons_self)
          refine i2 p y (hc.imp id (Or.imp id (fun hc hp => hc (List.mem_cons_of_mem _ hp)))) ?_
          rw [D.others p hpn hpm]; exact hy
        · intro p hp hf
          obtain ⟨f1, f2⟩ := i3 p hp hf
          have hpm : p ≠ m := fun e => queued_not_due D.named (e ▸ hp)
          have hpn : p ≠ n := fun e => by rw [e, D.gone] at f1; exact nomatch f1
          refine ⟨by rw [← D.others p hpn hpm]; exact f1, ?_⟩
          intro hmem
          rcases List.mem_cons.mp hmem with e | hmem
          · exact hpn e
          · exact f2 hmem
        · intro q hq dq hdq hgq
          rcases List.mem_cons.mp hq with e | hq
          · rw [e, hx] at hgq
            cases hgq
            exact ⟨m, D.named, i2 m _ (Or.inl (queued_not_due D.named)) D.at_⟩
          · exact i4 q hq dq hdq (by rw [← hsame q hq]; exact hgq)
    · have hno : ¬ Due n ∨ isDir (get st.dir n) = true := by
        cases x with
        | file data => exact Or.inl (fun h => hdue ⟨h, data, rfl⟩)
        | dir t => right; rw [hx]; rfl
      rw [scanDir_other hno] at h
      obtain ⟨i1, i2, i3, i4⟩ := ih st st' hd hl (fun p hp => hex p (List.mem_cons_of_mem _ hp)) h
      refine ⟨?_, ?_, ?_, ?_⟩
      · rw [i1, List.filterMap_cons]
        have : wanted parse st.dir n = none := by
          unfold wanted
          rw [hx]
          cases x with
          | file data => dsimp only; rw [if_neg (fun h => hdue ⟨h, data, rfl⟩)]
          | dir t => rfl
        rw [this]
      · intro p y hc hy
        exact i2 p y (hc.imp id (Or.imp id (fun hc hp => hc (List.mem_cons_of_mem _ hp)))) hy
      · intro p hp hf
        obtain ⟨f1, f2⟩ := i3 p hp hf
        refine ⟨f1, ?_⟩
        intro hmem
        rcases List.mem_cons.mp hmem with e | hmem
        · cases x with
          | file data => exact hdue ⟨e ▸ hp, data, rfl⟩
          | dir t => rw [e, hx] at f1; exact nomatch f1
        · exact f2 hmem
      · intro q hq dq hdq hgq
        rcases List.mem_cons.mp hq with e | hq
        · rw [e, hx] at hgq
          cases hgq
          exact absurd ⟨e ▸ hdq, dq, rfl⟩ hdue
        · exact i4 q hq dq hdq hgq

theorem get_names (d : Dir) (n : Bytes) : n ∈ names d ↔ ∃ x, get d n = some x := by
  constructor
  · intro h
    cases hg : get d n with
    | some x => exact ⟨x, rfl⟩
    | none => exact absurd h ((get_none_iff d n).mp hg)
  · rintro ⟨x, hx⟩
    exact Classical.byContradiction fun h => by
      rw [(get_none_iff d n).mpr h] at hx; exact nomatch hx

/- **Each incoming nzb-file is added exactly once**: a requested scan adds each of them once, in the order of the
directory, with its own contents; afterwards it is marked as queued, or as wrong if it could not be read; everything
else stays as it was; and no file is left which a later scan would add again. -/
theorem each_nzb_once (parse : Bytes → Bool) (fuel : Nat) (d : Dir) (hd : (names d).Nodup) (st : St)
    (h : scanDir parse (fun _ => true) fuel ⟨d, []⟩ (names d) = some st) :
    (st.added.map (fun a => (a.data, a.ok)) = (names d).filterMap (wanted parse d)) ∧
    (∀ n data, Due n → get d n = some (.file data) →
      ∃ m, ext m = some (if parse data then lit ".queued" else lit ".error") ∧ get st.dir m = some (.file data)) ∧
    (∀ n x, ¬ Due n → get d n = some x → get st.dir n = some x) ∧
    (∀ n, Due n → isFile (get st.dir n) = false) := by
  obtain ⟨h1, h2, h3, h4⟩ := scanDir_spec parse fuel (names d) ⟨d, []⟩ st hd hd (fun n hn => (get_names d n).mp hn) h
  refine ⟨h1, fun n data hn hg => h4 n ((get_names d n).mpr ⟨_, hg⟩) data hn hg, fun n x hn => h2 n x (Or.inl hn), ?_⟩
  intro n hn
  cases hf : isFile (get st.dir n) with
  | false => rfl
  | true =>
    obtain ⟨g1, g2⟩ := h3 n hn hf
    obtain ⟨data, hg⟩ := (isFile_iff _).mp g1
    exact absurd ((get_names d n).mpr ⟨_, hg⟩) g2

/- Further scans add nothing. -/
theorem scanned_is_final (parse ren : Bytes → Bool) (fuel : Nat) (l : List Bytes) (st : St)
    (hex : ∀ n ∈ l, ∃ x, get st.dir n = some x) (h : ∀ n, Due n → isFile (get st.dir n) = false) :
    scanDir parse ren fuel st l = some st := by
  induction l with
  | nil => rfl
  | cons n l ih =>
    rw [scanDir_other, ih (fun m hm => hex m (List.mem_cons_of_mem _ hm))]
    by_cases hn : Due n
    · right
      obtain ⟨x, hx⟩ := hex n List.mem_cons_self
      have := h n hn
      rw [hx] at this ⊢
      cases x with
      | file _ => exact nomatch this
      | dir _ => rfl
    · exact Or.inl hn

/- **No file is added twice**: whatever was scanned once and could be renamed is not added by the next scan. -/
theorem second_scan_adds_nothing (parse parse2 ren : Bytes → Bool) (fuel fuel2 : Nat) (d : Dir) (hd : (names d).Nodup) (st : St)
    (h : scanDir parse (fun _ => true) fuel ⟨d, []⟩ (names d) = some st) :
    scanDir parse2 ren fuel2 st (names st.dir) = some st :=
  scanned_is_final parse2 ren fuel2 (names st.dir) st (fun n hn => (get_names _ n).mp hn) (each_nzb_once parse fuel d hd st h).2.2.2

/- **A crash before the queue is saved loses nzb-files**: the files are renamed first (Scanner.cpp:428), then the
collection is put to the queue and the queue is saved (QueueCoordinator.cpp:350-430). If the program stops between, the
saved queue does not have the collection, and no later scan adds it again. `renamed`: the directory at that moment. -/
theorem crash_before_save_loses (parse parse2 ren : Bytes → Bool) (fuel fuel2 : Nat) (n data : Bytes) (hn : Due n)
    (renamed : Dir) (added : List Added) (h : scanDir parse (fun _ => true) fuel ⟨[(n, .file data)], []⟩ [n] = some ⟨renamed, added⟩) :
    added.map (·.data) = [data] ∧ scanDir parse2 ren fuel2 ⟨renamed, []⟩ (names renamed) = some ⟨renamed, []⟩ := by
  have hd : (names [(n, Node.file data)]).Nodup := by unfold names; simp
  obtain ⟨h1, _, _, h4⟩ := each_nzb_once parse fuel [(n, .file data)] hd _ h
  refine ⟨?_, scanned_is_final parse2 ren fuel2 (names renamed) ⟨renamed, []⟩ (fun m hm => (get_names _ m).mp hm) h4⟩
  have hw : wanted parse [(n, .file data)] n = some (data, parse data) := by
    unfold wanted
    rw [Files.get, if_pos rfl]
    dsimp only
    rw [if_pos hn]
  unfold names at h1
  rw [List.map_cons, List.map_nil, List.filterMap_cons, hw] at h1
  have h2 := congrArg (List.map Prod.fst) h1
  rw [List.map_map] at h2
  exact h2

example : scanDir (fun _ => true) (fun _ => true) 2 ⟨[(lit "a.nzb", .file (lit "1"))], []⟩ [lit "a.nzb"] =
    some ⟨[(lit "a.nzb.queued", .file (lit "1"))], [⟨lit "a.nzb", lit "1", true⟩]⟩ := by decide +kernel

def incoming : Dir := [(lit "a.nzb", .file (lit "1")), (lit "a.nzb.queued", .file (lit "2")), (lit "b.NZB", .file (lit "3")),
  (lit ".c.nzb", .file (lit "4")), (lit "d.nzb_processed", .file (lit "5")), (lit "d.nzb", .dir 7), (lit "e.txt", .file (lit "6"))]

/-- The file b is damaged. -/
def readable (data : Bytes) : Bool := data != lit "3"

def scanned : St :=
  { dir := [(lit "d.2.nzb.queued", .file (lit "5")), (lit "b.NZB.error", .file (lit "3")), (lit "a.nzb.2.queued", .file (lit "1")),
      (lit "a.nzb.queued", .file (lit "2")), (lit ".c.nzb", .file (lit "4")), (lit "d.nzb", .dir 7), (lit "e.txt", .file (lit "6"))],
    added := [⟨lit "a.nzb", lit "1", true⟩, ⟨lit "b.NZB", lit "3", false⟩, ⟨lit "d.2.nzb", lit "5", true⟩] }

theorem scanned_eq : scanDir readable (fun _ => true) 10 ⟨incoming, []⟩ (names incoming) = some scanned := by decide +kernel

example : (names incoming).filterMap (wanted readable incoming) = [(lit "1", true), (lit "3", false), (lit "5", true)] :=
  (each_nzb_once readable 10 incoming (by decide +kernel) scanned scanned_eq).1.symm

example : scanDir readable (fun _ => true) 10 scanned (names scanned.dir) = some scanned :=
  second_scan_adds_nothing readable readable (fun _ => true) 10 10 incoming (by decide +kernel) scanned scanned_eq

example : List.Perm (contents incoming) (contents scanned.dir) :=
  (scan_loses_nothing readable (fun _ => true) 10 (names incoming) ⟨incoming, []⟩ scanned (by decide +kernel) scanned_eq).2

/- ## The search for a name ends -/

theorem bak_inj {name part : Bytes} {i j : Nat} (h : bakName name part i = bakName name part j) : i = j := by
  unfold bakName at h
  by_cases h2 : i = 0
  · by_cases h3 : j = 0
    · omega
    · rw [if_pos h2, if_neg h3] at h
      have := congrArg List.length h
      simp only [List.length_append, List.length_cons] at this
      omega
  · by_cases h3 : j = 0
    · rw [if_neg h2, if_pos h3] at h
      have := congrArg List.length h
      simp only [List.length_append, List.length_cons] at this
      omega
    · rw [if_neg h2, if_neg h3] at h
      have h4 := (List.cons.inj (List.append_cancel_left h)).2
      have h5 : digits 0 (dec (i + 1) ++ 46 :: part) = digits 0 (dec (j + 1) ++ 46 :: part) := congrArg (digits 0) h4
      rw [digits_dec (i + 1) (46 :: part) (by intro b hb; cases hb; decide), digits_dec (j + 1) (46 :: part) (by intro b hb; cases hb; decide)] at h5
      omega

theorem renameBak_none {d : Dir} {name part : Bytes} : ∀ {f k : Nat}, renameBak d name part f k = none →
    ∀ j, k ≤ j → j < k + f → bakName name part j ∈ names d := by
  intro f
  induction f with
  | zero => intro k _ j h1 h2; omega
  | succ f ih =>
    intro k h j h1 h2
    rw [renameBak] at h
    by_cases hk : (get d (bakName name part k)).isSome = true
    · rw [if_pos hk] at h
      by_cases e : j = k
      · rw [e]
        exact (get_names d _).mpr (Option.isSome_iff_exists.mp hk)
      · exact ih h j (by omega) (by omega)
    · rw [if_neg hk] at h; exact nomatch h

/- The search for a free name ends after at most one more name than there are entries. -/
theorem renameBak_ends (d : Dir) (name part : Bytes) (fuel : Nat) (hf : d.length < fuel) :
    ∃ m, renameBak d name part fuel 0 = some m := by
  cases h : renameBak d name part fuel 0 with
  | some m => exact ⟨m, rfl⟩
  | none =>
    exfalso
    have hall := renameBak_none h
    have hnd : ((List.range (d.length + 1)).map (bakName name part)).Nodup := by
      refine List.pairwise_map.mpr ?_
      refine List.Pairwise.imp_of_mem ?_ (List.nodup_range (n := d.length + 1))
      intro i j _ _ hne he
      exact hne (bak_inj he)
    have hsub : ∀ q ∈ (List.range (d.length + 1)).map (bakName name part), q ∈ names d := by
      intro q hq
      obtain ⟨j, hj, e⟩ := List.mem_map.mp hq
      rw [← e]
      exact hall j (by omega) (by have := List.mem_range.mp hj; omega)
    have := hnd.length_le_of_subset hsub
    unfold names at this
    rw [List.length_map, List.length_map, List.length_range] at this
    omega

theorem contents_length {d d' : Dir} (h : List.Perm (contents d) (contents d')) : d.length = d'.length := by
  have := h.length_eq
  unfold contents at this
  rwa [List.length_map, List.length_map] at this

theorem addFile_ends (parse ren : Bytes → Bool) (fuel : Nat) (st : St) (n : Bytes) (hf : st.dir.length < fuel) :
    ∃ st', addFile parse ren fuel st n = some st' := by
  unfold addFile
  split
  · rename_i data _
    obtain ⟨m, hm⟩ := renameBak_ends st.dir n (lit (if parse data then "queued" else "error")) fuel hf
    rw [hm]
    dsimp only
    split
    · exact ⟨_, rfl⟩
    · exact ⟨_, rfl⟩
  · exact ⟨_, rfl⟩

/- **A scan ends** for every directory. -/
theorem scan_ends (parse ren : Bytes → Bool) (fuel : Nat) (l : List Bytes) : ∀ (st : St), (names st.dir).Nodup → st.dir.length < fuel →
    ∃ st', scanDir parse ren fuel st l = some st' := by
  induction l with
  | nil => intro st _ _; exact ⟨st, rfl⟩
  | cons n l ih =>
    intro st hd hf
    rw [scanDir]
    split
    · exact ih st hd hf
    · split
      · have hp : ∃ st1, process parse ren fuel st n = some st1 := by
          unfold process
          split
          · split
            · rename_i data hg
              obtain ⟨m, hm⟩ := renameBak_ends st.dir (stem n) (lit "nzb") fuel hf
              rw [hm]
              dsimp only
              split
              · refine addFile_ends parse ren fuel _ m ?_
                have := contents_length (moved hd hg (renameBak_some hm).1).2.1
                show (put (del st.dir n) m (.file data)).length < fuel
                omega
              · exact ⟨_, rfl⟩
            · exact ⟨_, rfl⟩
          · split
            · exact addFile_ends parse ren fuel st n hf
            · exact ⟨_, rfl⟩
        obtain ⟨st1, hp⟩ := hp
        rw [hp]
        dsimp only
        have hk := process_keeps hd hp
        have := contents_length hk.2
        exact ih st1 hk.1 (by omega)
      · exact ih st hd hf

example : ∃ st, scanDir readable (fun _ => true) 8 ⟨incoming, []⟩ (names incoming) = some st :=
  scan_ends readable (fun _ => true) 8 _ _ (by decide +kernel) (by decide)

/- **A file which can not be renamed is added again and again**: each scan puts it to the history as failed once more. -/
theorem unrenamable_added_again (parse : Bytes → Bool) (fuel : Nat) (hf : 1 < fuel) (n data : Bytes) (hn : Due n)
    (he : ext n = some (lit ".nzb")) (l : List Added) :
    scanDir parse (fun _ => false) fuel ⟨[(n, .file data)], l⟩ [n] = some ⟨[(n, .file data)], l ++ [⟨n, data, false⟩]⟩ := by
  have hg : get [(n, Node.file data)] n = some (.file data) := by rw [Files.get, if_pos rfl]
  have ha : addFile parse (fun _ => false) fuel ⟨[(n, .file data)], l⟩ n = some ⟨[(n, .file data)], l ++ [⟨n, data, false⟩]⟩ := by
    unfold addFile
    dsimp only
    rw [hg]
    dsimp only
    obtain ⟨m, hm⟩ := renameBak_ends [(n, .file data)] n (lit (if parse data then "queued" else "error")) fuel hf
    rw [hm]
    dsimp only
    rw [if_neg Bool.false_ne_true]
  rw [scanDir, if_neg hn.1]
  dsimp only
  rw [hg, due_not_excluded hn, if_pos (by rfl)]
  have hp : process parse (fun _ => false) fuel ⟨[(n, .file data)], l⟩ n = some ⟨[(n, .file data)], l ++ [⟨n, data, false⟩]⟩ := by
    unfold process
    rw [he, if_neg (by decide), if_pos rfl]
    exact ha
  rw [hp]
  rfl

example : Due (lit "a.nzb") ∧ ext (lit "a.nzb") = some (lit ".nzb") := by decide +kernel

end Verif.Scan
