import Verif.ParVerdict
import Verif.FileNameProps
import Verif.RepairFilesProps
/-
The result of a par check: what libpar2 says is right for sets without files which are not recoverable; a repair is done only if needed and
possible; and where damaged files are not noticed.
-/
namespace Verif.ParVerdict
open Verif.CStr

/-! ### Names -/

theorem lastIdx_none (c : UInt8) (s : Bytes) (h : c ∉ s) : FileName.lastIdx c s = none := by
  induction s with
  | nil => rfl
  | cons b s ih =>
    rw [FileName.lastIdx, ih (fun x => h (List.mem_cons_of_mem _ x))]
    dsimp only
    rw [if_neg (fun e => h (by rw [e]; exact List.mem_cons_self))]

/-- The file of the set lies in the directory of the par2 file, whatever its name in the par2 file says: the name has no separator and is neither
`.` nor `..`. -/
theorem target_inside (path name : Bytes) :
    ∃ base, targetName path name = path ++ base ∧ (47 : UInt8) ∉ base ∧ (92 : UInt8) ∉ base ∧ base ≠ lit "." ∧ base ≠ lit ".." := by
  have hv := FileName.sanitised_valid name
  have h47 : (47 : UInt8) ∉ FileName.makeValid false name := fun h => hv.chars _ h (Or.inr (by decide))
  have h92 : (92 : UInt8) ∉ FileName.makeValid false name := fun h => hv.chars _ h (Or.inr (by decide))
  refine ⟨FileName.makeValid false name, ?_, h47, h92, ?_, ?_⟩
  · unfold targetName stripPath
    rw [lastIdx_none _ _ h92, lastIdx_none _ _ h47]
  · exact fun e => (hv.last []).1 e
  · exact fun e => (hv.last [46]).1 e

example : targetName (lit "/d/") (lit "x\\../../etc/passwd") = lit "/d/x_.._.._etc_passwd" := by decide +kernel

/-! ### What libpar2 says -/

/-- The file is there, complete and under its name. -/
def Good : Option Src → Prop
  | some s => ∃ o, s.complete = some o ∧ s.target = some o
  | none => False

/-- The blocks of a file which were not found. -/
def lacking : Option Src → Nat
  | some s => if s.complete = none then s.found.count false else 0
  | none => 0

/-- There are only recoverable files. -/
structure Plain (v : Checked) : Prop where
  all : v.recoverable = v.files.length
  blocks : ∀ s, some s ∈ v.files → s.found.length = s.total
  small : sourceBlocks v < 2 ^ 32

def good : Option Src → Bool
  | some s => match s.complete with | some o => s.target == some o | none => false
  | none => false
def renamed : Option Src → Bool
  | some s => match s.complete with | some o => !(s.target == some o) | none => false
  | none => false
def damaged : Option Src → Bool
  | some s => s.complete.isNone && s.target.isSome
  | none => false
def missing : Option Src → Bool
  | some s => s.complete.isNone && s.target.isNone
  | none => true
def avail : Option Src → Nat
  | some s => if s.complete = none then s.found.count true else s.total
  | none => 0

theorem good_iff (f : Option Src) : good f = true ↔ Good f := by
  rcases f with _ | ⟨total, found, target, complete⟩
  · exact ⟨(nomatch ·), False.elim⟩
  · unfold good Good
    cases complete with
    | none => exact ⟨(nomatch ·), fun ⟨o, h, _⟩ => nomatch h⟩
    | some o =>
      dsimp only
      rw [beq_iff_eq]
      constructor
      · intro h; exact ⟨o, rfl, h⟩
      · rintro ⟨p, h1, h2⟩; injection h1 with h1; rw [h1]; exact h2

theorem countFile_rec (c : Counts) (f : Option Src) :
    countFile true c f = some ⟨c.available + avail f, c.complete + (good f).toNat, c.renamed + (renamed f).toNat, c.damaged + (damaged f).toNat,
      c.missing + (missing f).toNat⟩ := by
  rcases f with _ | ⟨total, found, target, complete⟩
  · rfl
  · unfold countFile avail good renamed damaged missing
    cases complete with
    | some o =>
      dsimp only
      by_cases ht : target = some o
      · rw [if_pos ht]; simp [ht]
      · rw [if_neg ht]
        have : (target == some o) = false := by rw [beq_eq_false_iff_ne]; exact ht
        simp [this]
    | none =>
      dsimp only
      rw [if_neg (fun x => Bool.noConfusion x.1)]
      cases target <;> simp

theorem countAll_rec (r : Nat) (l : List (Option Src)) : ∀ (n : Nat) (c : Counts), n + l.length ≤ r →
    countAll r n l c = some ⟨c.available + (l.map avail).sum, c.complete + (l.map (fun f => (good f).toNat)).sum,
      c.renamed + (l.map (fun f => (renamed f).toNat)).sum, c.damaged + (l.map (fun f => (damaged f).toNat)).sum,
      c.missing + (l.map (fun f => (missing f).toNat)).sum⟩ := by
  induction l with
  | nil => intro n c _; rfl
  | cons f l ih =>
    intro n c h
    rw [List.length_cons] at h
    rw [countAll, decide_eq_true (by omega : n < r), countFile_rec]
    dsimp only
    rw [ih _ _ (by omega)]
    simp only [List.map_cons, List.sum_cons, Nat.add_assoc]

theorem sum_lt (p : Option Src → Bool) (l : List (Option Src)) :
    (l.map (fun f => (p f).toNat)).sum ≤ l.length ∧ ((l.map (fun f => (p f).toNat)).sum = l.length ↔ ∀ f ∈ l, p f = true) := by
  induction l with
  | nil => simp
  | cons f l ih =>
    simp only [List.map_cons, List.sum_cons, List.length_cons, List.mem_cons, forall_eq_or_imp]
    cases hp : p f with
    | true =>
      simp only [Bool.toNat_true]
      refine ⟨by omega, ?_⟩
      rw [← ih.2]
      constructor
      · intro h; exact ⟨trivial, by omega⟩
      · intro h; have := h.2; omega
    | false =>
      simp only [Bool.toNat_false]
      refine ⟨by omega, ?_⟩
      constructor
      · intro h; have := ih.1; omega
      · intro h; exact nomatch h.1

theorem sum_zero (p : Option Src → Bool) (l : List (Option Src)) (h : ∀ f ∈ l, p f = false) : (l.map (fun f => (p f).toNat)).sum = 0 := by
  induction l with
  | nil => rfl
  | cons f l ih =>
    rw [List.map_cons, List.sum_cons, h f List.mem_cons_self, ih (fun g hg => h g (List.mem_cons_of_mem _ hg))]
    rfl

theorem count_split (l : List Bool) : l.count true + l.count false = l.length := by
  induction l with
  | nil => rfl
  | cons b l ih => cases b <;> simp only [List.count_cons, List.length_cons] <;> simp <;> omega

theorem blocks_split (l : List (Option Src)) (h : ∀ s, some s ∈ l → s.found.length = s.total) :
    (l.map blocksOf).sum = (l.map avail).sum + (l.map lacking).sum := by
  induction l with
  | nil => rfl
  | cons f l ih =>
    rw [List.map_cons, List.map_cons, List.map_cons, List.sum_cons, List.sum_cons, List.sum_cons, ih (fun s hs => h s (List.mem_cons_of_mem _ hs))]
    have : blocksOf f = avail f + lacking f := by
      cases f with
      | none => rfl
      | some s =>
        unfold blocksOf avail lacking
        dsimp only
        by_cases hc : s.complete = none
        · rw [if_pos hc, if_pos hc, count_split, h s List.mem_cons_self]
        · rw [if_neg hc, if_neg hc, Nat.add_zero]
    omega

/-- With only recoverable files libpar2 says: nothing to do exactly if every file is there, complete and under its name; otherwise a repair
is possible exactly if there are as many recovery blocks as blocks which were not found. -/
theorem verdict_spec (v : Checked) (h : Plain v) :
    (verdict v = some .success ↔ ∀ f ∈ v.files, Good f) ∧
    (verdict v = some .possible ↔ (¬ ∀ f ∈ v.files, Good f) ∧ (v.files.map lacking).sum ≤ v.packets) ∧
    (verdict v = some .notPossible ↔ (¬ ∀ f ∈ v.files, Good f) ∧ v.packets < (v.files.map lacking).sum) := by
  unfold verdict
  rw [countAll_rec v.recoverable v.files 0 {} (by rw [h.all]; omega)]
  dsimp only
  simp only [Nat.zero_add]
  have hall : (∀ f ∈ v.files, Good f) ↔ (v.files.map (fun f => (good f).toNat)).sum = v.files.length := by
    rw [(sum_lt good v.files).2]
    constructor
    · exact fun x f hf => (good_iff f).2 (x f hf)
    · exact fun x f hf => (good_iff f).1 (x f hf)
  have hle := (sum_lt good v.files).1
  have hmiss : missingBlocks v ⟨(v.files.map avail).sum, (v.files.map (fun f => (good f).toNat)).sum, (v.files.map (fun f => (renamed f).toNat)).sum,
      (v.files.map (fun f => (damaged f).toNat)).sum, (v.files.map (fun f => (missing f).toNat)).sum⟩ = (v.files.map lacking).sum := by
    unfold missingBlocks
    have hs := h.small
    unfold sourceBlocks at hs ⊢
    rw [h.all, List.take_length] at hs ⊢
    rw [blocks_split v.files h.blocks] at hs ⊢
    dsimp only
    omega
  by_cases hg : ∀ f ∈ v.files, Good f
  · have hg2 := hall.1 hg
    have z : ∀ p : Option Src → Bool, (∀ f, good f = true → p f = false) → (v.files.map (fun f => (p f).toNat)).sum = 0 :=
      fun p hp => sum_zero p v.files (fun f hf => hp f ((good_iff f).2 (hg f hf)))
    have z1 := z renamed (by
      intro f hf
      rcases f with _ | ⟨total, found, target, complete⟩
      · rfl
      · unfold good at hf; unfold renamed
        cases complete with
        | none => rfl
        | some o => dsimp only at hf ⊢; rw [hf]; rfl)
    have z2 := z damaged (by
      intro f hf
      rcases f with _ | ⟨total, found, target, complete⟩
      · rfl
      · unfold good at hf
        cases complete with
        | none => exact nomatch hf
        | some o => rfl)
    have z3 := z missing (by
      intro f hf
      rcases f with _ | ⟨total, found, target, complete⟩
      · exact nomatch hf
      · unfold good at hf
        cases complete with
        | none => exact nomatch hf
        | some o => rfl)
    rw [if_neg (by rw [z1, z2, z3, hg2, h.all]; omega)]
    exact ⟨⟨fun _ => hg, fun _ => rfl⟩, ⟨(nomatch ·), fun x => absurd hg x.1⟩, ⟨(nomatch ·), fun x => absurd hg x.1⟩⟩
  · have hlt : (v.files.map (fun f => (good f).toNat)).sum < v.recoverable := by
      have hne : (v.files.map (fun f => (good f).toNat)).sum ≠ v.files.length := fun x => hg (hall.2 x)
      rw [h.all]; omega
    rw [if_pos (Or.inl hlt), hmiss]
    by_cases hp : v.packets ≥ (v.files.map lacking).sum
    · rw [if_pos hp, if_pos hlt]
      exact ⟨⟨(nomatch ·), fun x => absurd x hg⟩, ⟨fun _ => ⟨hg, hp⟩, fun _ => rfl⟩, ⟨(nomatch ·), fun x => by omega⟩⟩
    · rw [if_neg hp]
      exact ⟨⟨(nomatch ·), fun x => absurd x hg⟩, ⟨(nomatch ·), fun x => absurd x.2 hp⟩, ⟨fun _ => ⟨hg, by omega⟩, fun _ => rfl⟩⟩

def v0 : Checked := ⟨[some ⟨2, [true, false], some 0, none⟩, some ⟨1, [true], none, some 1⟩], 2, 1⟩

theorem plain0 : Plain v0 := by
  refine ⟨rfl, ?_, by decide⟩
  intro s hs
  unfold v0 at hs
  simp only [List.mem_cons, List.not_mem_nil, or_false, Option.some.injEq] at hs
  rcases hs with rfl | rfl <;> rfl

example : verdict v0 = some .possible := by decide

/-- If there are files which are not recoverable, complete ones hide a missing recoverable file: nothing is done. -/
theorem others_hide : verdict ⟨[some ⟨1, [true], some 0, some 0⟩, some ⟨1, [false], none, none⟩, some ⟨1, [], some 2, some 2⟩], 2, 0⟩ = some .success ∧
    ¬ Good (some ⟨1, [false], none, none⟩) := by
  refine ⟨by decide, ?_⟩
  rintro ⟨o, h, _⟩
  exact nomatch h

/-- And a damaged one of them is undefined behaviour. -/
theorem others_undefined : verdict ⟨[some ⟨1, [true], some 0, some 0⟩, some ⟨1, [], some 1, none⟩], 1, 5⟩ = none := by decide

/-! ### Which files count as damaged -/

/-- What can be noticed: the file is not found, or fewer blocks are found in it than it has. -/
def Noticed (quick : Bool) (f : File) : Prop :=
  match f.look with
  | .missing => 0 < f.total ∨ quick = false
  | .silent => quick = false
  | .full c t => c < t
  | .quick c => c < f.total
  | .failed => False
  | .quickEmpty => 0 < f.total

/-- There are damaged files exactly if such a file is not one of those to be ignored. -/
theorem hasDamaged_iff (quick : Bool) (files : List File) :
    hasDamaged quick files = true ↔ ∃ f ∈ files, f.ignored = false ∧ Noticed quick f := by
  unfold hasDamaged
  rw [Bool.or_eq_true, List.any_eq_true, Bool.and_eq_true, List.any_eq_true]
  constructor
  · rintro (⟨f, hf, h⟩ | ⟨hq, f, hf, h⟩)
    · refine ⟨f, hf, ?_⟩
      unfold flagged signal at h
      unfold Noticed
      cases hl : f.look <;> rw [hl] at h <;> simp only [Bool.and_eq_true, decide_eq_true_eq, Bool.not_eq_true'] at h ⊢
      · exact ⟨h.2, Or.inl h.1⟩
      · exact nomatch h
      · exact ⟨h.2, h.1⟩
      · exact ⟨h.2, h.1⟩
      · omega
      · exact ⟨h.2, h.1⟩
    · refine ⟨f, hf, ?_⟩
      have hq' : quick = false := by simpa using hq
      unfold processed at h
      unfold Noticed
      cases hl : f.look <;> rw [hl] at h <;> simp at h ⊢
      · exact ⟨h.2, Or.inr hq'⟩
      · exact ⟨h, hq'⟩
  · rintro ⟨f, hf, hi, h⟩
    unfold Noticed at h
    have a : flagged f = true → (∃ x, x ∈ files ∧ flagged x = true) ∨ ((!quick) = true ∧ ∃ x, x ∈ files ∧ (!processed x && !x.ignored) = true) :=
      fun h => Or.inl ⟨f, hf, h⟩
    have b : quick = false → processed f = false →
        (∃ x, x ∈ files ∧ flagged x = true) ∨ ((!quick) = true ∧ ∃ x, x ∈ files ∧ (!processed x && !x.ignored) = true) :=
      fun h1 h2 => Or.inr ⟨by rw [h1]; rfl, f, hf, by rw [h2, hi]; rfl⟩
    cases hl : f.look <;> rw [hl] at h <;> dsimp only at h
    · by_cases ht : 0 < f.total
      · apply a; unfold flagged signal; rw [hl]; simp [hi, ht]
      · rcases h with h | h
        · exact absurd h ht
        · apply b h; unfold processed; rw [hl]; simp; omega
    · apply b h; unfold processed; rw [hl]
    · apply a; unfold flagged signal; rw [hl]; simp [hi, h]
    · apply a; unfold flagged signal; rw [hl]; simp [hi, h]
    · apply a; unfold flagged signal; rw [hl]; simp [hi, h]

/-! ### The run -/

/-- The last word of the verification. -/
def Last (e : Env) (r : Res) : Prop := (verified e).1 = r

/-- A par check ends as not needed exactly if it was not cancelled, the par2 file could be read and either libpar2 says so in the end or no
file counts as damaged. -/
theorem notNeeded_iff (e : Env) :
    (run e).1 = .notNeeded ↔ e.pre = true ∧ e.stop 0 = false ∧ e.stop 6 = false ∧ e.stop 7 = false ∧ (Last e .success ∨ e.damaged = false) := by
  unfold run Last finish
  cases hp : e.pre <;> cases h0 : e.stop 0 <;> cases h6 : e.stop 6 <;> cases h7 : e.stop 7 <;> simp <;>
    cases hd : e.damaged <;> cases hr : e.parRepair <;> cases hx : e.repair <;> cases hv : (verified e).1 <;> simp

/-- It ends as repaired exactly if libpar2 said in the end that a repair is possible, the repair is not switched off and was successful. -/
theorem repaired_iff (e : Env) :
    (run e).1 = .repaired ↔ e.pre = true ∧ e.stop 0 = false ∧ e.stop 6 = false ∧ e.stop 7 = false ∧ Last e .possible ∧ e.damaged = true ∧
      e.parRepair = true ∧ e.repair = true := by
  unfold run Last finish
  cases hp : e.pre <;> cases h0 : e.stop 0 <;> cases h6 : e.stop 6 <;> cases h7 : e.stop 7 <;> simp <;>
    cases hd : e.damaged <;> cases hr : e.parRepair <;> cases hx : e.repair <;> cases hv : (verified e).1 <;> simp

theorem acts_fragments (e : Env) (a : Act) (h : a ∈ (stepFragments e).2.2) : a = .fragments ∨ a = .verify := by
  unfold stepFragments at h
  split at h
  · split at h <;> simp at h <;> grind
  · exact nomatch h

theorem acts_missing (e : Env) (r : Res) (b : Bool) (a : Act) (h : a ∈ (stepMissing e r b).2) : a = .missingFiles ∨ a = .verify := by
  unfold stepMissing at h
  split at h
  · split at h <;> simp at h <;> grind
  · exact nomatch h

theorem acts_more (e : Env) (r : Res) (a : Act) (h : a ∈ (stepMore e r).2) : a = .morePars ∧ e.damaged = true ∧ e.stop 3 = false ∧ r = .notPossible := by
  unfold stepMore at h
  split at h
  · rename_i hc
    simp at h
    exact ⟨h, hc⟩
  · exact nomatch h

theorem acts_dupes (e : Env) (r : Res) (a : Act) (h : a ∈ (stepDupes e r).2) :
    (a = .dupeFiles ∨ a = .verify ∨ a = .morePars) ∧ e.damaged = true ∧ e.stop 4 = false ∧ r = .notPossible ∧ e.scan = .dupe := by
  unfold stepDupes at h
  split at h
  · rename_i hc
    refine ⟨?_, hc⟩
    split at h
    · split at h <;> simp at h <;> grind
    · simp at h; exact Or.inl h
  · exact nomatch h

theorem verified_mem (e : Env) (a : Act) (h : a ∈ (verified e).2) :
    a = .verify ∨ a = .fragments ∨ a = .missingFiles ∨
    (a = .morePars ∧ e.damaged = true ∧ ((stepMissing e (stepFragments e).1 (stepFragments e).2.1).1 = .notPossible ∨
      (stepMore e (stepMissing e (stepFragments e).1 (stepFragments e).2.1).1).1 = .notPossible)) ∨
    (a = .dupeFiles ∧ e.damaged = true ∧ e.scan = .dupe ∧ e.stop 4 = false ∧
      (stepMore e (stepMissing e (stepFragments e).1 (stepFragments e).2.1).1).1 = .notPossible) := by
  unfold verified at h
  dsimp only at h
  rw [List.mem_append, List.mem_append, List.cons_append, List.mem_cons] at h
  rcases h with ((h | h) | h) | h
  · exact Or.inl h
  · rw [List.mem_append] at h
    rcases h with h | h
    · have := acts_fragments e a h; grind
    · have := acts_missing e _ _ a h; grind
  · have := acts_more e _ a h; grind
  · have := acts_dupes e _ a h; grind

/-- Split fragments are looked for exactly if something is damaged and it can't be repaired with what was found. -/
theorem fragments_iff (e : Env) : Act.fragments ∈ (verified e).2 ↔ e.damaged = true ∧ e.stop 1 = false ∧ e.first = .notPossible := by
  have h2 := acts_missing e (stepFragments e).1 (stepFragments e).2.1 .fragments
  have h3 := acts_more e (stepMissing e (stepFragments e).1 (stepFragments e).2.1).1 .fragments
  have h4 := acts_dupes e (stepMore e (stepMissing e (stepFragments e).1 (stepFragments e).2.1).1).1 .fragments
  unfold verified
  simp only [List.mem_append, List.mem_cons, List.cons_append]
  have h1 : Act.fragments ∈ (stepFragments e).2.2 ↔ e.damaged = true ∧ e.stop 1 = false ∧ e.first = .notPossible := by
    unfold stepFragments
    by_cases h : e.damaged = true ∧ e.stop 1 = false ∧ e.first = .notPossible
    · rw [if_pos h]
      cases e.fragmentsFound <;> simp [h]
    · rw [if_neg h]; simp [h]
  rw [← h1]
  grind

/-- Other files are searched for blocks exactly if something is damaged, files are missing, the option is "extended" or "dupe", and the fragments
were not enough. -/
theorem missing_iff (e : Env) : Act.missingFiles ∈ (verified e).2 ↔ e.damaged = true ∧ e.stop 2 = false ∧ e.filesMissing = true ∧
    (e.scan = .extended ∨ e.scan = .dupe) ∧
    ¬ (e.stop 1 = false ∧ e.first = .notPossible ∧ e.fragmentsFound = true ∧ e.afterFragments = .possible) := by
  have h1 := acts_fragments e .missingFiles
  have h3 := acts_more e (stepMissing e (stepFragments e).1 (stepFragments e).2.1).1 .missingFiles
  have h4 := acts_dupes e (stepMore e (stepMissing e (stepFragments e).1 (stepFragments e).2.1).1).1 .missingFiles
  unfold verified
  simp only [List.mem_append, List.mem_cons, List.cons_append]
  have h2 : Act.missingFiles ∈ (stepMissing e (stepFragments e).1 (stepFragments e).2.1).2 ↔ e.damaged = true ∧ e.stop 2 = false ∧
      e.filesMissing = true ∧ ¬ ((stepFragments e).2.1 = true ∧ (stepFragments e).1 = .possible) ∧ (e.scan = .extended ∨ e.scan = .dupe) := by
    unfold stepMissing
    by_cases h : e.damaged = true ∧ e.stop 2 = false ∧ e.filesMissing = true ∧ ¬ ((stepFragments e).2.1 = true ∧ (stepFragments e).1 = .possible) ∧
        (e.scan = .extended ∨ e.scan = .dupe)
    · rw [if_pos h]
      cases e.missingFound <;> simp [h]
    · rw [if_neg h]
      exact ⟨nofun, fun q => absurd q h⟩
  have h5 : e.damaged = true → (((stepFragments e).2.1 = true ∧ (stepFragments e).1 = .possible) ↔
      (e.stop 1 = false ∧ e.first = .notPossible ∧ e.fragmentsFound = true ∧ e.afterFragments = .possible)) := by
    intro hd
    unfold stepFragments
    by_cases h : e.damaged = true ∧ e.stop 1 = false ∧ e.first = .notPossible
    · rw [if_pos h]
      cases hf : e.fragmentsFound <;> simp [h]
    · rw [if_neg h]
      constructor
      · rintro ⟨q, _⟩; simp at q
      · rintro ⟨a, b, _⟩; exact absurd ⟨hd, a, b⟩ h
  grind

theorem verified_acts (e : Env) (a : Act) (h : a ∈ (verified e).2) : a ≠ .repair ∧ a ≠ .leftovers := by
  rcases verified_mem e a h with rfl | rfl | rfl | ⟨rfl, _⟩ | ⟨rfl, _⟩ <;> exact ⟨nofun, nofun⟩

theorem finish_acts (e : Env) (r : Res) (a : Act) (h : a ∈ (finish e r).2.1) :
    (a = .repair ∨ a = .leftovers) ∧ r = .possible ∧ e.damaged = true ∧ e.parRepair = true ∧ (a = .leftovers → e.repair = true) := by
  unfold finish at h
  grind

theorem run_mem (e : Env) (a : Act) (h : a ∈ (run e).2) :
    e.pre = true ∧ e.stop 0 = false ∧ (a ∈ (verified e).2 ∨ (e.stop 6 = false ∧ a ∈ (finish e (verified e).1).2.1)) := by
  unfold run at h
  by_cases h0 : e.stop 0 = true ∨ e.pre = false
  · rw [if_pos h0] at h; exact nomatch h
  · rw [if_neg h0] at h
    refine ⟨by grind, by grind, ?_⟩
    dsimp only at h
    cases h6 : e.stop 6 with
    | true => rw [h6, if_pos rfl] at h; exact Or.inl h
    | false =>
      rw [h6, if_neg Bool.false_ne_true] at h
      split at h
      · rcases List.mem_append.1 h with x | x
        · exact Or.inl x
        · exact Or.inr ⟨rfl, x⟩
      · rcases List.mem_append.1 h with x | x
        · exact Or.inl x
        · exact Or.inr ⟨rfl, x⟩

/-- Files are changed only by a repair which libpar2 said is possible, which is needed and not switched off, and only if the check was not
cancelled before; files are deleted only after success. -/
theorem repair_only (e : Env) (h : Act.repair ∈ (run e).2 ∨ Act.leftovers ∈ (run e).2) :
    e.pre = true ∧ e.stop 0 = false ∧ e.stop 6 = false ∧ Last e .possible ∧ e.damaged = true ∧ e.parRepair = true ∧
    (Act.leftovers ∈ (run e).2 → e.repair = true) := by
  have key : ∀ a, a = .repair ∨ a = .leftovers → a ∈ (run e).2 → e.pre = true ∧ e.stop 0 = false ∧ e.stop 6 = false ∧
      a ∈ (finish e (verified e).1).2.1 := by
    intro a ha hm
    obtain ⟨x, y, z⟩ := run_mem e a hm
    rcases z with z | z
    · have := verified_acts e a z
      rcases ha with ha | ha
      · exact absurd ha this.1
      · exact absurd ha this.2
    · exact ⟨x, y, z.1, z.2⟩
  have hlast : Act.leftovers ∈ (run e).2 → e.repair = true := fun hm =>
    (finish_acts e _ _ (key _ (Or.inr rfl) hm).2.2.2).2.2.2.2 rfl
  rcases h with h | h
  · obtain ⟨x, y, z, u⟩ := key _ (Or.inl rfl) h
    obtain ⟨_, a, b, c, _⟩ := finish_acts e _ _ u
    exact ⟨x, y, z, a, b, c, hlast⟩
  · obtain ⟨x, y, z, u⟩ := key _ (Or.inr rfl) h
    obtain ⟨_, a, b, c, _⟩ := finish_acts e _ _ u
    exact ⟨x, y, z, a, b, c, hlast⟩

theorem missing_result (e : Env) (h : (stepMissing e (stepFragments e).1 (stepFragments e).2.1).1 = .notPossible) :
    e.first = .notPossible ∨ e.afterFragments = .notPossible ∨ e.afterMissing = .notPossible := by
  have hf : (stepFragments e).1 = e.first ∨ (stepFragments e).1 = e.afterFragments := by
    unfold stepFragments
    split
    · split
      · exact Or.inr rfl
      · exact Or.inl rfl
    · exact Or.inl rfl
  have hm : ∀ r b, (stepMissing e r b).1 = r ∨ (stepMissing e r b).1 = e.afterMissing := by
    intro r b
    unfold stepMissing
    split
    · split
      · exact Or.inr rfl
      · exact Or.inl rfl
    · exact Or.inl rfl
  rcases hm (stepFragments e).1 (stepFragments e).2.1 with x | x
  · rw [x] at h
    rcases hf with y | y
    · rw [y] at h; exact Or.inl h
    · rw [y] at h; exact Or.inr (Or.inl h)
  · rw [x] at h; exact Or.inr (Or.inr h)

/-- If the blocks do not suffice after more par2 files were asked for, they did not before. -/
theorem more_result (e : Env) (r : Res) (h : (stepMore e r).1 = .notPossible) : r = .notPossible := by
  unfold stepMore at h
  split at h
  · rename_i hc; exact hc.2.2
  · exact h

/-- More par2 files are fetched only if there are damaged files and libpar2 said that the blocks do not suffice. -/
theorem morePars_only (e : Env) (h : Act.morePars ∈ (run e).2) :
    e.damaged = true ∧ (e.first = .notPossible ∨ e.afterFragments = .notPossible ∨ e.afterMissing = .notPossible) := by
  rcases (run_mem e _ h).2.2 with x | x
  · rcases verified_mem e _ x with y | y | y | ⟨_, hd, y⟩ | ⟨y, _⟩
    · exact nomatch y
    · exact nomatch y
    · exact nomatch y
    · refine ⟨hd, missing_result e ?_⟩
      rcases y with y | y
      · exact y
      · exact more_result e _ y
    · exact nomatch y
  · have := (finish_acts e _ _ x.2).1
    rcases this with y | y <;> exact nomatch y

/-- Directories of other downloads are searched only with ParScan=dupe and if the blocks did not suffice although more par2 files were fetched
(or it was cancelled meanwhile). -/
theorem dupes_only (e : Env) (h : Act.dupeFiles ∈ (run e).2) :
    e.damaged = true ∧ e.scan = .dupe ∧ e.stop 4 = false ∧ (e.more = .notPossible ∨ e.stop 3 = true) := by
  rcases (run_mem e _ h).2.2 with x | x
  · rcases verified_mem e _ x with y | y | y | ⟨y, _⟩ | ⟨_, hd, hs, h4, y⟩
    · exact nomatch y
    · exact nomatch y
    · exact nomatch y
    · exact nomatch y
    · refine ⟨hd, hs, h4, ?_⟩
      have hr := more_result e _ y
      rw [hr] at y
      unfold stepMore at y
      cases h3 : e.stop 3 with
      | true => exact Or.inr rfl
      | false => rw [if_pos ⟨hd, h3, rfl⟩] at y; exact Or.inl y
  · have := (finish_acts e _ _ x.2).1
    rcases this with y | y <;> exact nomatch y

/-- If it is cancelled before the repair, nothing is changed and it failed. -/
theorem cancelled (e : Env) (h : e.stop 6 = true) : (run e).1 = .failed ∧ Act.repair ∉ (run e).2 ∧ Act.leftovers ∉ (run e).2 := by
  refine ⟨?_, fun x => ?_, fun x => ?_⟩
  · unfold run
    split
    · rfl
    · dsimp only
  · have := (repair_only e (Or.inl x)).2.2.1; rw [h] at this; exact nomatch this
  · have := (repair_only e (Or.inr x)).2.2.1; rw [h] at this; exact nomatch this

/-- If it is cancelled after the repair, the repair is done, files are deleted, and yet it ends as if the repair was only possible. -/
theorem cancelled_late (e : Env) (hp : e.pre = true) (h0 : e.stop 0 = false) (h6 : e.stop 6 = false) (h7 : e.stop 7 = true)
    (hl : Last e .possible) (hd : e.damaged = true) (hr : e.parRepair = true) (hx : e.repair = true) :
    (run e).1 = .repairPossible ∧ Act.leftovers ∈ (run e).2 := by
  unfold run finish
  unfold Last at hl
  simp [hp, h0, h6, h7, hl, hd, hr, hx]

/-- If it ends as repaired, the files of the set are there with their content (C134). -/
theorem repaired_complete (e : Env) (par : RepairFiles.Par) (io : RepairFiles.Io) (quick : Bool) (w : RepairFiles.World) (h : RepairFiles.Ready par w)
    (hq : quick = false ∨ ∀ i, i < par.count → io.written (par.name i) = par.wanted i)
    (hr : e.repair = decide ((RepairFiles.repair par io quick w).1 = .success)) (hs : (run e).1 = .repaired) (i : Nat) (hi : i < par.count) :
    RepairFiles.get (RepairFiles.repair par io quick w).2.fs (par.name i) = some (par.wanted i) := by
  have := (repaired_iff e).1 hs
  have he := this.2.2.2.2.2.2.2
  rw [hr, decide_eq_true_eq] at he
  exact RepairFiles.success_complete par io quick w h hq he i hi

/-- All goes well; damaged files; a repair is possible. -/
def e0 : Env where
  stop := fun _ => false
  pre := true
  first := .notPossible
  damaged := hasDamaged true [⟨5, false, .quick 3⟩, ⟨2, false, .missing⟩]
  fragmentsFound := false
  afterFragments := .error
  filesMissing := true
  scan := .extended
  missingFound := true
  afterMissing := .notPossible
  more := .possible
  dupesFound := false
  afterDupes := .error
  moreAgain := .error
  parRepair := true
  repair := true

example : run e0 = (.repaired, [.verify, .fragments, .missingFiles, .verify, .morePars, .repair, .leftovers]) := by decide

/-- Whatever libpar2 says - also that a repair is needed or that files can not be read - the check ends as not needed if no file counts as
damaged. -/
theorem unnoticed (e : Env) (files : List File) (quick : Bool) (hd : e.damaged = hasDamaged quick files) (hn : ∀ f ∈ files, f.ignored = false → ¬ Noticed quick f)
    (hp : e.pre = true) (h0 : e.stop 0 = false) (h6 : e.stop 6 = false) (h7 : e.stop 7 = false) :
    (run e).1 = .notNeeded ∧ Act.repair ∉ (run e).2 := by
  have hf : e.damaged = false := by
    rw [hd, ← Bool.not_eq_true]
    intro x
    obtain ⟨f, hm, hi, h⟩ := (hasDamaged_iff quick files).1 x
    exact hn f hm hi h
  refine ⟨(notNeeded_iff e).2 ⟨hp, h0, h6, h7, Or.inr hf⟩, fun x => ?_⟩
  have := (repair_only e (Or.inl x)).2.2.2.2.1
  rw [hf] at this
  exact nomatch this

/-- In a quick check a file whose download failed altogether, but which is not empty, is not noticed: with only such files the download ends as
not in need of a repair, although libpar2 says that a repair is possible. -/
theorem failed_not_repaired : (run { e0 with first := .possible, damaged := hasDamaged true [⟨5, false, .failed⟩, ⟨2, false, .quick 2⟩] }).1 = .notNeeded ∧
    (run { e0 with first := .possible, damaged := hasDamaged false [⟨5, false, .full 0 5⟩, ⟨2, false, .full 2 2⟩] }).1 = .repaired := by decide

/-- Files which have each other's names are not noticed, even in a full check; nor is a file with too much data at its end. -/
theorem swapped_not_noticed : (run { e0 with first := .possible, damaged := hasDamaged false [⟨5, false, .full 2 2⟩, ⟨2, false, .full 5 5⟩] }).1 = .notNeeded := by
  decide

/-- A missing empty file is noticed only in a full check. -/
theorem empty_not_noticed : (run { e0 with first := .possible, damaged := hasDamaged true [⟨0, false, .missing⟩] }).1 = .notNeeded ∧
    (run { e0 with first := .possible, damaged := hasDamaged false [⟨0, false, .missing⟩] }).1 = .repaired := by decide

end Verif.ParVerdict
