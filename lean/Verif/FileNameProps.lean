import Verif.FileName
/-! C39: sanitised file names. C40: unique file names. C75: the directories of downloads. -/
namespace Verif.FileName
open CStr

/-! ### C39, specification -/

/-- Characters which are not allowed in names on Windows or POSIX. -/
def BadChar (c : UInt8) : Prop := c.toNat < 32 ∨ c ∈ lit "\"*/:<>?\\|"

/-- A name of a device, alone or with an extension, in any case. -/
def Device (s : Bytes) : Prop :=
  ∃ d ∈ ["CON", "PRN", "AUX", "NUL", "COM1", "COM2", "COM3", "COM4", "COM5", "COM6", "COM7", "COM8", "COM9",
      "LPT1", "LPT2", "LPT3", "LPT4", "LPT5", "LPT6", "LPT7", "LPT8", "LPT9"],
    ∃ rest, s.map WildMask.lower = (lit d).map WildMask.lower ++ rest ∧ (rest = [] ∨ ∃ t, rest = 46 :: t)

/-- A valid name. -/
structure Valid (s : Bytes) : Prop where
  chars : ∀ c ∈ s, ¬ BadChar c
  last : ∀ t, s ≠ t ++ [46] ∧ s ≠ t ++ [32]
  device : ¬ Device s

/-! ### Lemmas -/

theorem reservedChar_iff (c : UInt8) : reservedChar c = true ↔ BadChar c := by
  unfold reservedChar BadChar
  rw [Bool.or_eq_true, decide_eq_true_eq, List.contains_iff_mem]

theorem lower_46 (c : UInt8) : WildMask.lower c = 46 ↔ c = 46 := by
  constructor
  · intro h
    unfold WildMask.lower at h
    split at h
    · next hr =>
      have := congrArg UInt8.toNat h
      rw [UInt8.toNat_ofNat'] at this
      have e : (46 : UInt8).toNat = 46 := rfl
      omega
    · exact h
  · rintro rfl; decide

theorem isDevice_iff (s d : Bytes) : isDevice s d = true ↔
    ∃ rest, s.map WildMask.lower = d.map WildMask.lower ++ rest ∧ (rest = [] ∨ ∃ t, rest = 46 :: t) := by
  unfold isDevice
  rw [Bool.and_eq_true, List.isPrefixOf_iff_prefix, Bool.or_eq_true, beq_iff_eq, beq_iff_eq]
  constructor
  · rintro ⟨⟨rest, h⟩, hc⟩
    refine ⟨rest, h.symm, ?_⟩
    have hget : rest[0]? = s[d.length]?.map WildMask.lower := by
      have := congrArg (fun l => l[d.length]?) h
      rw [List.getElem?_append_right (by simp), List.length_map, Nat.sub_self, List.getElem?_map] at this
      exact this
    rcases hc with hc | hc
    · rw [hc] at hget
      cases rest with
      | nil => exact nomatch hget
      | cons x t =>
        rw [List.getElem?_cons_zero] at hget
        injection hget with hget
        exact Or.inr ⟨t, by rw [hget]; rfl⟩
    · rw [hc] at hget
      cases rest with
      | nil => exact Or.inl rfl
      | cons x t => exact nomatch hget
  · rintro ⟨rest, h, hr⟩
    refine ⟨⟨rest, h.symm⟩, ?_⟩
    have hget : s[d.length]?.map WildMask.lower = rest[0]? := by
      have := congrArg (fun l => l[d.length]?) h
      rw [List.getElem?_append_right (by simp), List.length_map, Nat.sub_self, List.getElem?_map] at this
      exact this
    rcases hr with rfl | ⟨t, rfl⟩
    · right
      cases hs : s[d.length]? with
      | none => rfl
      | some x => rw [hs] at hget; exact nomatch hget
    · left
      cases hs : s[d.length]? with
      | none => rw [hs] at hget; exact nomatch hget
      | some x =>
        rw [hs] at hget
        rw [List.getElem?_cons_zero] at hget
        injection hget with hget
        rw [(lower_46 x).mp hget]

theorem any_device_iff (s : Bytes) : deviceNames.any (fun d => isDevice s (lit d)) = true ↔ Device s := by
  unfold Device deviceNames
  rw [List.any_eq_true]
  simp only [isDevice_iff]

theorem dropTrailing_prefix (s : Bytes) : dropTrailing s <+: s := by
  unfold dropTrailing
  have h := List.dropWhile_suffix (fun c : UInt8 => c == 46 || c == 32) (l := s.reverse)
  rw [← List.reverse_prefix, List.reverse_reverse] at h
  exact h

theorem dropTrailing_last (s t : Bytes) : dropTrailing s ≠ t ++ [46] ∧ dropTrailing s ≠ t ++ [32] := by
  unfold dropTrailing
  have key : ∀ x : UInt8, (x == 46 || x == 32) = true → (s.reverse.dropWhile (fun c => c == 46 || c == 32)).reverse ≠ t ++ [x] := by
    intro x hx h
    have h2 : s.reverse.dropWhile (fun c => c == 46 || c == 32) = x :: t.reverse := by
      have := congrArg List.reverse h
      rw [List.reverse_reverse] at this
      rw [this]; simp
    have h3 := List.head?_dropWhile_not (fun c : UInt8 => c == 46 || c == 32) s.reverse
    rw [h2] at h3
    simp only [List.head?_cons] at h3
    rw [hx] at h3
    exact nomatch h3
  exact ⟨key 46 (by decide), key 32 (by decide)⟩

theorem dropTrailing_id (s : Bytes) (h : ∀ t, s ≠ t ++ [46] ∧ s ≠ t ++ [32]) : dropTrailing s = s := by
  unfold dropTrailing
  cases hr : s.reverse with
  | nil => rw [List.reverse_eq_nil_iff] at hr; subst hr; rfl
  | cons x t =>
    have hs : s = t.reverse ++ [x] := by
      have := congrArg List.reverse hr
      rw [List.reverse_reverse] at this
      rw [this]; simp
    have hx : (x == 46 || x == 32) = false := by
      rw [← Bool.not_eq_true]
      intro hx
      rw [Bool.or_eq_true, beq_iff_eq, beq_iff_eq] at hx
      rcases hx with rfl | rfl
      · exact (h t.reverse).1 hs
      · exact (h t.reverse).2 hs
    rw [List.dropWhile_cons, hx]
    simp only [Bool.false_eq_true, if_false]
    rw [hs]; simp

theorem validChar_good (c : UInt8) : ¬ BadChar (validChar false c) := by
  unfold validChar
  split
  · rw [if_neg (by simp), ← reservedChar_iff]; decide
  · next h => rwa [← reservedChar_iff]

theorem validChar_id {c : UInt8} (a : Bool) (h : ¬ BadChar c) : validChar a c = c := by
  unfold validChar
  rw [if_neg (by rwa [reservedChar_iff])]

/-- **C39.** A valid name is not changed. -/
theorem valid_unchanged (s : Bytes) (h : Valid s) : makeValid false s = s := by
  have e : s.map (validChar false) = s := by
    have := List.map_congr_left (f := validChar false) (g := id) (fun c hc => validChar_id false (h.chars c hc))
    rw [this, List.map_id]
  unfold makeValid
  dsimp only
  rw [e, dropTrailing_id s h.last, if_neg (by rw [any_device_iff]; exact h.device)]

/-- **C39.** The sanitised name of anything is valid. -/
theorem sanitised_valid (s : Bytes) : Valid (makeValid false s) := by
  unfold makeValid
  dsimp only
  generalize hr : dropTrailing (s.map (validChar false)) = r
  have hchars : ∀ c ∈ r, ¬ BadChar c := by
    intro c hc
    have hp := dropTrailing_prefix (s.map (validChar false))
    rw [hr] at hp
    have := hp.subset hc
    rw [List.mem_map] at this
    obtain ⟨x, -, rfl⟩ := this
    exact validChar_good x
  have hlast : ∀ t, r ≠ t ++ [46] ∧ r ≠ t ++ [32] := by
    intro t; rw [← hr]; exact dropTrailing_last _ t
  by_cases hd : deviceNames.any (fun d => isDevice r (lit d)) = true
  · rw [if_pos hd]
    refine ⟨?_, ?_, ?_⟩
    · intro c hc
      rcases List.mem_cons.mp hc with rfl | hc
      · rw [← reservedChar_iff]; decide
      · exact hchars c hc
    · intro t
      constructor
      · intro h
        cases t with
        | nil => rw [List.nil_append, List.cons.injEq] at h; exact absurd h.1 (by decide)
        | cons x t => rw [List.cons_append, List.cons.injEq] at h; exact (hlast t).1 h.2
      · intro h
        cases t with
        | nil => rw [List.nil_append, List.cons.injEq] at h; exact absurd h.1 (by decide)
        | cons x t => rw [List.cons_append, List.cons.injEq] at h; exact (hlast t).2 h.2
    · rintro ⟨d, hm, rest, h, -⟩
      have hne : ∀ d ∈ ["CON", "PRN", "AUX", "NUL", "COM1", "COM2", "COM3", "COM4", "COM5", "COM6", "COM7", "COM8", "COM9",
          "LPT1", "LPT2", "LPT3", "LPT4", "LPT5", "LPT6", "LPT7", "LPT8", "LPT9"],
          ((lit d).map WildMask.lower).head? ≠ some 95 ∧ (lit d).map WildMask.lower ≠ [] := by decide
      obtain ⟨h1, h2⟩ := hne d hm
      cases hl : (lit d).map WildMask.lower with
      | nil => exact h2 hl
      | cons x t =>
        rw [hl, List.map_cons, List.cons_append, List.cons.injEq] at h
        rw [hl] at h1
        apply h1
        rw [List.head?_cons, ← h.1]
        rfl
  · rw [if_neg hd]
    exact ⟨hchars, hlast, by rw [← any_device_iff]; exact hd⟩

/-- **C39.** Sanitising again changes nothing. -/
theorem sanitise_idempotent (s : Bytes) : makeValid false (makeValid false s) = makeValid false s :=
  valid_unchanged _ (sanitised_valid s)

example : makeValid false (lit "../a:b/con. . ") = lit ".._a_b_con" ∧ makeValid false (lit "NUL.txt ") = lit "_NUL.txt" ∧
    makeValid false (lit "conx") = lit "conx" := by decide +kernel

/-! ### C40 -/

theorem dec_inj {a b : Nat} (h : dec a = dec b) : a = b := by
  have ha := digits_dec a [] (by simp)
  have hb := digits_dec b [] (by simp)
  rw [h] at ha
  omega

theorem dupName_inj (base : Bytes) {a b : Nat} (h : dupName base a = dupName base b) : a = b := by
  unfold dupName at h
  have c1 : ∀ x y : Bytes, x ++ lit ".duplicate" ++ dec a = x ++ lit ".duplicate" ++ dec b → a = b :=
    fun x y h => dec_inj (List.append_cancel_left h)
  have c2 : ∀ x y : Bytes, x ++ lit ".duplicate" ++ dec a ++ y = x ++ lit ".duplicate" ++ dec b ++ y → a = b :=
    fun x y h => dec_inj (List.append_cancel_left (List.append_cancel_right h))
  split at h
  · exact c1 _ [] h
  · exact c1 _ [] h
  · dsimp only at h
    split at h
    · split at h
      · split at h
        · exact c2 _ _ h
        · exact c2 _ _ h
      · exact c2 _ _ h
    · exact c2 _ _ h

theorem nodup_subset_length : ∀ (l m : List Bytes), l.Nodup → (∀ x ∈ l, x ∈ m) → l.length ≤ m.length := by
  intro l
  induction l with
  | nil => intro m _ _; simp
  | cons x l ih =>
    intro m hn hs
    rw [List.nodup_cons] at hn
    have := ih (m.erase x) hn.2 (fun y hy => by
      have hne : y ≠ x := fun e => hn.1 (e ▸ hy)
      exact (List.mem_erase_of_ne hne).mpr (hs y (List.mem_cons_of_mem _ hy)))
    have hx := hs x List.mem_cons_self
    rw [List.length_erase_of_mem hx] at this
    have := List.length_pos_of_mem hx
    rw [List.length_cons]
    omega

theorem makeUnique_least (fs : Fs) (dir base : Bytes) : ∀ (f n k : Nat), k < f → fileExists fs (candidate dir base (n + k)) = false →
    ∃ j, j ≤ k ∧ makeUnique fs dir base f n = some (candidate dir base (n + j)) ∧ fileExists fs (candidate dir base (n + j)) = false ∧
      ∀ i < j, fileExists fs (candidate dir base (n + i)) = true := by
  intro f
  induction f with
  | zero => intro n k hk _; exact absurd hk (by omega)
  | succ f ih =>
    intro n k hk hf
    unfold makeUnique
    by_cases h : fileExists fs (candidate dir base n) = true
    · rw [if_pos h]
      cases k with
      | zero => rw [Nat.add_zero] at hf; rw [hf] at h; exact nomatch h
      | succ k =>
        obtain ⟨j, h1, h2, h3, h4⟩ := ih (n + 1) k (by omega) (by rw [show n + 1 + k = n + (k + 1) by omega]; exact hf)
        have e : n + 1 + j = n + (j + 1) := by omega
        rw [e] at h2 h3
        refine ⟨j + 1, by omega, h2, h3, ?_⟩
        intro i hi
        cases i with
        | zero => exact h
        | succ i =>
          have := h4 i (by omega)
          rwa [show n + 1 + i = n + (i + 1) by omega] at this
    · rw [if_neg h]
      rw [Bool.not_eq_true] at h
      exact ⟨0, by omega, rfl, h, fun i hi => absurd hi (by omega)⟩

theorem candidate_inj (dir base : Bytes) {a b : Nat} (h : candidate dir base (a + 1) = candidate dir base (b + 1)) : a = b := by
  unfold candidate at h
  rw [if_neg (by omega), if_neg (by omega)] at h
  have := List.append_cancel_left h
  rw [List.cons.injEq] at this
  have := dupName_inj base this.2
  omega

/-- There is a name which is free. -/
theorem free_candidate (fs : Fs) (files : List Bytes) (hfs : ∀ p, fs p = some .regular → p ∈ files) (dir base : Bytes) :
    ∃ k, k ≤ files.length + 1 ∧ fileExists fs (candidate dir base k) = false := by
  refine Classical.byContradiction (fun hc => ?_)
  have hall : ∀ k, k ≤ files.length + 1 → fileExists fs (candidate dir base k) = true := by
    intro k hk
    cases h : fileExists fs (candidate dir base k) with
    | true => rfl
    | false => exact absurd ⟨k, hk, h⟩ hc
  have hl := nodup_subset_length ((List.range (files.length + 1)).map (fun i => candidate dir base (i + 1))) files
    (by
      refine List.Pairwise.map _ ?_ List.nodup_range
      intro a b hab h
      exact hab (candidate_inj dir base h))
    (by
      intro x hx
      rw [List.mem_map] at hx
      obtain ⟨i, hi, rfl⟩ := hx
      rw [List.mem_range] at hi
      apply hfs
      have := hall (i + 1) (by omega)
      unfold fileExists at this
      rwa [beq_iff_eq] at this)
  rw [List.length_map, List.length_range] at hl
  omega

/-- How the name of a new file looks: the name itself, or with a number put before a part of it which
contains the extension. -/
inductive Numbered (base : Bytes) : Bytes → Prop
  | same : Numbered base base
  | number (stem ext : Bytes) (n : Nat) : 0 < n → base = stem ++ ext →
      (∀ a e, base = a ++ 46 :: e → 46 ∉ e → a ≠ [] → 46 :: e <:+ ext) →
      Numbered base (stem ++ lit ".duplicate" ++ dec n ++ ext)

theorem lastIdx_none {c : UInt8} {s : Bytes} (h : lastIdx c s = none) : c ∉ s := by
  induction s with
  | nil => simp
  | cons b s ih =>
    unfold lastIdx at h
    cases hl : lastIdx c s with
    | some i => rw [hl] at h; exact nomatch h
    | none =>
      rw [hl] at h
      dsimp only at h
      by_cases hb : b = c
      · rw [if_pos hb] at h; exact nomatch h
      · rw [List.mem_cons]
        rintro (e | e)
        · exact hb e.symm
        · exact ih hl e

theorem lastIdx_some {c : UInt8} : ∀ {s : Bytes} {i : Nat}, lastIdx c s = some i → ∃ a e, s = a ++ c :: e ∧ a.length = i ∧ c ∉ e := by
  intro s
  induction s with
  | nil => intro i h; exact nomatch h
  | cons b s ih =>
    intro i h
    unfold lastIdx at h
    cases hl : lastIdx c s with
    | some j =>
      rw [hl] at h
      dsimp only at h
      injection h with h
      obtain ⟨a, e, h1, h2, h3⟩ := ih hl
      exact ⟨b :: a, e, by rw [h1]; rfl, by rw [List.length_cons, h2, h], h3⟩
    | none =>
      rw [hl] at h
      dsimp only at h
      by_cases hb : b = c
      · rw [if_pos hb] at h
        injection h with h
        exact ⟨[], s, by rw [hb]; rfl, h, lastIdx_none hl⟩
      · rw [if_neg hb] at h; exact nomatch h

theorem last_unique {c : UInt8} : ∀ {a b e f : Bytes}, a ++ c :: e = b ++ c :: f → c ∉ e → c ∉ f → a = b ∧ e = f := by
  intro a
  induction a with
  | nil =>
    intro b e f h he hf
    cases b with
    | nil => rw [List.nil_append, List.nil_append, List.cons.injEq] at h; exact ⟨rfl, h.2⟩
    | cons x b =>
      rw [List.nil_append, List.cons_append, List.cons.injEq] at h
      exact absurd (by rw [h.2]; simp) he
  | cons y a ih =>
    intro b e f h he hf
    cases b with
    | nil =>
      rw [List.nil_append, List.cons_append, List.cons.injEq] at h
      exact absurd (by rw [← h.2]; simp) hf
    | cons x b =>
      rw [List.cons_append, List.cons_append, List.cons.injEq] at h
      obtain ⟨h1, h2⟩ := ih h.2 he hf
      exact ⟨by rw [h1, h.1], h2⟩

theorem dupName_numbered (base : Bytes) (hb : base.length ≤ 1023) (n : Nat) (hn : 0 < n) : Numbered base (dupName base n) := by
  have plain : (∀ a e, base = a ++ 46 :: e → 46 ∉ e → a ≠ [] → False) → Numbered base (base ++ lit ".duplicate" ++ dec n) := by
    intro h
    have := Numbered.number (base := base) base [] n hn (by rw [List.append_nil]) (fun a e h1 h2 h3 => (h a e h1 h2 h3).elim)
    rwa [List.append_nil] at this
  unfold dupName
  split
  · next h =>
    apply plain
    intro a e h1 _ _
    exact lastIdx_none h (by rw [h1]; simp)
  · next h =>
    apply plain
    intro a e h1 h2 h3
    obtain ⟨a', e', g1, g2, g3⟩ := lastIdx_some h
    obtain ⟨r1, -⟩ := last_unique (h1.symm.trans g1) h2 g3
    rw [r1] at h3
    exact h3 (List.length_eq_zero_iff.mp g2)
  · next i h =>
    obtain ⟨a', e', g1, g2, g3⟩ := lastIdx_some h
    have hlen : i + 1 ≤ 1023 := by
      have := congrArg List.length g1
      rw [List.length_append, List.length_cons] at this
      omega
    have hext : ∀ k, k ≤ i + 1 → ∀ a e, base = a ++ 46 :: e → 46 ∉ e → a ≠ [] → 46 :: e <:+ base.drop k := by
      intro k hk a e h1 h2 h3
      obtain ⟨r1, r2⟩ := last_unique (h1.symm.trans g1) h2 g3
      refine ⟨a.drop k, ?_⟩
      rw [h1, List.drop_append_of_le_length (by rw [r1, g2]; exact hk)]
    dsimp only
    have hmin : min (i + 1) 1023 = i + 1 := by omega
    rw [hmin]
    have std : Numbered base (base.take (i + 1) ++ lit ".duplicate" ++ dec n ++ base.drop (i + 1)) :=
      Numbered.number _ _ n hn (List.take_append_drop _ _).symm (hext (i + 1) (by omega))
    split
    · split
      · next v hv =>
        split
        · obtain ⟨a2, e2, k1, k2, -⟩ := lastIdx_some hv
          have hvl : v + 1 ≤ i + 1 := by
            have := congrArg List.length k1
            rw [List.length_append, List.length_cons, List.length_take] at this
            omega
          rw [List.take_take, show min (v + 1) (i + 1) = v + 1 by omega]
          exact Numbered.number _ _ n hn (List.take_append_drop _ _).symm (hext (v + 1) hvl)
        · exact std
      · exact std
    · exact std

/-- **C40.** In a file system with any finite set of files a name is found after at most one try more than there are
files plus one; it is in the directory, it keeps its extension (names up to 1023 characters), and no regular file has
it. The name itself is used if it is free. Missing: names of directories and special files, see
`unique_not_directory`. -/
theorem unique_name_partial (fs : Fs) (files : List Bytes) (hfs : ∀ p, fs p = some .regular → p ∈ files) (dir base : Bytes) :
    ∃ name, makeUnique fs dir base (files.length + 2) 0 = some (dir ++ 47 :: name) ∧
      fs (dir ++ 47 :: name) ≠ some .regular ∧
      (base.length ≤ 1023 → Numbered base name) ∧
      (fs (dir ++ 47 :: base) = none → name = base) := by
  obtain ⟨k, hk, hfree⟩ := free_candidate fs files hfs dir base
  obtain ⟨j, h1, h2, h3, h4⟩ := makeUnique_least fs dir base (files.length + 2) 0 k (by omega) (by rw [Nat.zero_add]; exact hfree)
  rw [Nat.zero_add] at h2 h3
  refine ⟨if j = 0 then base else dupName base j, h2, ?_, ?_, ?_⟩
  · intro h
    unfold fileExists candidate at h3
    rw [h] at h3
    exact nomatch h3
  · intro hb
    by_cases hj : j = 0
    · rw [if_pos hj]; exact .same
    · rw [if_neg hj]; exact dupName_numbered base hb j (by omega)
  · intro h
    by_cases hj : j = 0
    · rw [if_pos hj]
    · have := h4 0 (by omega)
      unfold fileExists candidate at this
      rw [Nat.zero_add, if_pos rfl, h] at this
      exact nomatch this

/-- **C40.** If the names which are tried belong to files only, the name does not exist. -/
theorem unique_name_free_partial (fs : Fs) (files : List Bytes) (hfs : ∀ p, fs p = some .regular → p ∈ files) (dir base : Bytes)
    (hd : ∀ name k, fs (dir ++ 47 :: name) = some k → k = .regular) :
    ∃ name, makeUnique fs dir base (files.length + 2) 0 = some (dir ++ 47 :: name) ∧ fs (dir ++ 47 :: name) = none := by
  obtain ⟨name, h1, h2, -⟩ := unique_name_partial fs files hfs dir base
  refine ⟨name, h1, ?_⟩
  cases h : fs (dir ++ 47 :: name) with
  | none => rfl
  | some k => exact absurd (by rw [h, hd name k h]) h2

/-- **C40, violated.** The name of a directory is taken for free. -/
theorem unique_not_directory (fs : Fs) (dir base : Bytes) (h : fs (dir ++ 47 :: base) = some .directory) (f : Nat) :
    makeUnique fs dir base (f + 1) 0 = some (dir ++ 47 :: base) := by
  unfold makeUnique fileExists candidate
  rw [if_pos rfl, h]
  rfl

/-- A file system with two files for the examples. -/
def exFs : Fs := fun p => if p = lit "d/a.vol1+2.par2" ∨ p = lit "d/a.duplicate1.vol1+2.par2" then some .regular else none

example : makeUnique exFs (lit "d") (lit "a.vol1+2.par2") 4 0 = some (lit "d/a.duplicate2.vol1+2.par2") ∧
    makeUnique exFs (lit "d") (lit "a.par2") 4 0 = some (lit "d/a.par2") := by decide +kernel

example : ∀ p, exFs p = some .regular → p ∈ [lit "d/a.vol1+2.par2", lit "d/a.duplicate1.vol1+2.par2"] := by
  intro p h
  unfold exFs at h
  by_cases hp : p = lit "d/a.vol1+2.par2" ∨ p = lit "d/a.duplicate1.vol1+2.par2"
  · rcases hp with rfl | rfl <;> simp
  · rw [if_neg hp] at h; exact nomatch h

/-! ### C75, specification -/

/-- The parts of a path between separators. -/
def parts (sep : UInt8 → Bool) : Bytes → List Bytes
  | [] => [[]]
  | c :: s =>
    if sep c then [] :: parts sep s
    else match parts sep s with
      | [] => [[c]]
      | p :: ps => (c :: p) :: ps

/-- `/` separates directories. -/
def slash (c : UInt8) : Bool := c == 47
/-- In the name of a category `\` does as well. -/
def anySlash (c : UInt8) : Bool := c == 47 || c == 92

/-- The path is in the directory: it does not lead out of it. -/
def Below (dir path : Bytes) : Prop := ∃ rel, path = dir ++ 47 :: rel ∧ lit ".." ∉ parts slash rel

/-! ### Lemmas -/

theorem parts_ne_nil (sep : UInt8 → Bool) (s : Bytes) : parts sep s ≠ [] := by
  cases s with
  | nil => exact List.cons_ne_nil _ _
  | cons c s =>
    unfold parts
    split
    · exact List.cons_ne_nil _ _
    · split <;> exact List.cons_ne_nil _ _

theorem parts_cons_sep {sep : UInt8 → Bool} {c : UInt8} (h : sep c = true) (s : Bytes) : parts sep (c :: s) = [] :: parts sep s := by
  rw [parts, if_pos h]

theorem parts_cons {sep : UInt8 → Bool} {c : UInt8} (h : sep c = false) {s p : Bytes} {ps : List Bytes} (hp : parts sep s = p :: ps) :
    parts sep (c :: s) = (c :: p) :: ps := by
  rw [parts, if_neg (by rw [h]; exact Bool.false_ne_true), hp]

theorem parts_append (sep : UInt8 → Bool) (c : UInt8) (hc : sep c = true) : ∀ (a b : Bytes),
    parts sep (a ++ c :: b) = parts sep a ++ parts sep b := by
  intro a
  induction a with
  | nil => intro b; rw [List.nil_append, parts_cons_sep hc]; rfl
  | cons x a ih =>
    intro b
    cases hx : sep x with
    | true => rw [List.cons_append, parts_cons_sep hx, parts_cons_sep hx, ih]; rfl
    | false =>
      cases hp : parts sep a with
      | nil => exact absurd hp (parts_ne_nil _ _)
      | cons p ps =>
        rw [List.cons_append, parts_cons hx hp, parts_cons hx (p := p) (ps := ps ++ parts sep b) (by rw [ih, hp]; rfl)]
        rfl

theorem parts_map (sep sep' : UInt8 → Bool) (f : UInt8 → UInt8) (h : ∀ c, sep' (f c) = sep c) (s : Bytes) :
    parts sep' (s.map f) = (parts sep s).map (List.map f) := by
  induction s with
  | nil => rfl
  | cons c s ih =>
    rw [List.map_cons]
    cases hc : sep c with
    | true => rw [parts_cons_sep hc, parts_cons_sep (by rw [h, hc]), ih]; rfl
    | false =>
      cases hp : parts sep s with
      | nil => exact absurd hp (parts_ne_nil _ _)
      | cons p ps =>
        rw [parts_cons hc hp, parts_cons (by rw [h, hc]) (p := p.map f) (ps := ps.map (List.map f)) (by rw [ih, hp]; rfl)]
        rfl

theorem parts_no_sep {sep : UInt8 → Bool} (s : Bytes) (h : ∀ c ∈ s, sep c = false) : parts sep s = [s] := by
  induction s with
  | nil => rfl
  | cons c s ih => rw [parts_cons (h c List.mem_cons_self) (ih (fun x hx => h x (List.mem_cons_of_mem _ hx)))]

theorem parts_split (sep : UInt8 → Bool) (b : Bytes) : ∀ (a : Bytes), ∃ init l t, parts sep a = init ++ [l] ∧ l <:+ a ∧
    (init = [] → l = a) ∧ parts sep (a ++ b) = init ++ t := by
  intro a
  induction a with
  | nil => exact ⟨[], [], parts sep ([] ++ b), rfl, List.suffix_refl _, fun _ => rfl, rfl⟩
  | cons x a ih =>
    obtain ⟨init, l, t, h1, h2, h3, h4⟩ := ih
    cases hx : sep x with
    | true =>
      refine ⟨[] :: init, l, t, by rw [parts_cons_sep hx, h1]; rfl, h2.trans (List.suffix_cons _ _), fun h => absurd h (List.cons_ne_nil _ _), ?_⟩
      rw [List.cons_append, parts_cons_sep hx, h4]
      rfl
    | false =>
      cases init with
      | nil =>
        have hl := h3 rfl
        subst hl
        exact ⟨[], x :: l, _, parts_cons hx h1, List.suffix_refl _, fun _ => rfl, rfl⟩
      | cons p ps =>
        refine ⟨(x :: p) :: ps, l, t, parts_cons hx h1, h2.trans (List.suffix_cons _ _), fun h => absurd h (List.cons_ne_nil _ _), ?_⟩
        rw [List.cons_append, parts_cons hx h4]
        rfl

theorem mem_parts_prefix (sep : UInt8 → Bool) (a b p : Bytes) (h : p ∈ parts sep a) : p <:+ a ∨ p ∈ parts sep (a ++ b) := by
  obtain ⟨init, l, t, h1, h2, -, h4⟩ := parts_split sep b a
  rw [h1, List.mem_append, List.mem_singleton] at h
  rcases h with h | rfl
  · exact Or.inr (by rw [h4]; exact List.mem_append_left _ h)
  · exact Or.inl h2

theorem validChar_slash (c : UInt8) : slash (validChar true c) = anySlash c := by
  unfold validChar anySlash slash
  by_cases h : (c == 47 || c == 92) = true
  · have hr : reservedChar c = true := by
      rw [Bool.or_eq_true, beq_iff_eq, beq_iff_eq] at h
      rcases h with rfl | rfl <;> decide
    rw [if_pos hr, if_pos (by rw [h]; rfl), h]
    rfl
  · rw [Bool.not_eq_true] at h
    rw [h]
    split
    · rw [if_neg (by simp)]; decide
    · rw [Bool.or_eq_false_iff] at h; exact h.1

theorem validChar_dot {a : Bool} {c : UInt8} (h : validChar a c = 46) : c = 46 := by
  unfold validChar at h
  split at h
  · split at h <;> exact absurd h (by decide)
  · exact h

theorem parts_valid (category : Bytes) (h : lit ".." ∉ parts anySlash category) : lit ".." ∉ parts slash (makeValid true category) := by
  have h1 : lit ".." ∉ parts slash (category.map (validChar true)) := by
    rw [parts_map anySlash slash _ validChar_slash, List.mem_map]
    rintro ⟨q, hq, e⟩
    apply h
    have : q = lit ".." := by
      have e' : q.map (validChar true) = [46, 46] := e
      match q, e' with
      | [], e' => simp at e'
      | [_], e' => simp at e'
      | [x, y], e' =>
        simp only [List.map_cons, List.map_nil, List.cons.injEq, and_true] at e'
        rw [validChar_dot e'.1, validChar_dot e'.2]; rfl
      | _ :: _ :: _ :: _, e' => simp at e'
    rwa [this] at hq
  have h2 : lit ".." ∉ parts slash (dropTrailing (category.map (validChar true))) := by
    intro hm
    obtain ⟨t, ht⟩ := dropTrailing_prefix (category.map (validChar true))
    rcases mem_parts_prefix slash _ t _ hm with ⟨u, hu⟩ | hm
    · refine (dropTrailing_last (category.map (validChar true)) (u ++ [46])).1 ?_
      rw [← hu, List.append_assoc]; rfl
    · rw [ht] at hm; exact h1 hm
  unfold makeValid
  dsimp only
  split
  · cases hp : parts slash (dropTrailing (category.map (validChar true))) with
    | nil => exact absurd hp (parts_ne_nil _ _)
    | cons p ps =>
      rw [parts_cons (by decide) hp]
      intro hm
      rcases List.mem_cons.mp hm with e | e
      · have : lit ".." = [46, 46] := rfl
        rw [this, List.cons.injEq] at e
        exact absurd e.1 (by decide)
      · rw [hp] at h2
        exact h2 (List.mem_cons_of_mem _ e)
  · exact h2

theorem parts_name (e : Bool) (file : Bytes) : lit ".." ∉ parts slash (niceName e file) := by
  have hv : Valid (niceName e file) := sanitised_valid _
  rw [parts_no_sep _ (fun c hc => by
    have := hv.chars c hc
    unfold slash
    rw [← Bool.not_eq_true, beq_iff_eq]
    rintro rfl
    exact this ((reservedChar_iff 47).mp (by decide))), List.mem_singleton]
  intro h
  exact (hv.last [46]).1 h.symm

theorem lastIdx_append {c : UInt8} (a : Bytes) {e : Bytes} (h : c ∉ e) :
    lastIdx c (a ++ c :: e) = some a.length := by
  induction a with
  | nil =>
    have hn : lastIdx c e = none := by
      cases hl : lastIdx c e with
      | none => rfl
      | some i =>
        obtain ⟨x, y, h1, -, -⟩ := lastIdx_some hl
        exact absurd (by rw [h1]; exact List.mem_append_right _ (List.mem_cons_self ..)) h
    show (match lastIdx c e with | some i => some (i + 1) | none => if c = c then some 0 else none) = some 0
    rw [hn]
    exact if_pos rfl
  | cons b a ih =>
    show (match lastIdx c (a ++ c :: e) with | some i => some (i + 1) | none => _) = _
    rw [ih]
    rfl

theorem takeWhile_append_stop (p : UInt8 → Bool) {x : UInt8} (hx : p x = false) (t : Bytes) :
    ∀ (l : Bytes), (∀ c ∈ l, p c = true) → (l ++ x :: t).takeWhile p = l
  | [], _ => by rw [List.nil_append, List.takeWhile_cons, hx]; rfl
  | a :: l, h => by
    rw [List.cons_append, List.takeWhile_cons, h a (List.mem_cons_self ..), if_pos rfl,
      takeWhile_append_stop p hx t l (fun c hc => h c (List.mem_cons_of_mem _ hc))]

theorem baseName_append (dir base : Bytes) (h47 : (47 : UInt8) ∉ base) (h92 : (92 : UInt8) ∉ base) :
    baseName (dir ++ 47 :: base) = base := by
  unfold baseName
  rw [List.reverse_append, List.reverse_cons, List.append_assoc]
  rw [show ([47] : Bytes) ++ dir.reverse = 47 :: dir.reverse from rfl, takeWhile_append_stop _ (by decide)]
  · exact List.reverse_reverse _
  · intro c hc
    have hc := List.mem_reverse.mp hc
    have n1 : c ≠ 47 := fun h => h47 (h ▸ hc)
    have n2 : c ≠ 92 := fun h => h92 (h ▸ hc)
    simp [n1, n2]

/-- **C39.** The name of a download is the name of the nzb-file without its directory and without the extension `.nzb`
in any case, any other extension stays. -/
theorem download_name (dir base ext : Bytes) (h47 : (47 : UInt8) ∉ base) (h92 : (92 : UInt8) ∉ base)
    (hl : base.length ≤ 1019) (hd : (46 : UInt8) ∉ ext) (hx : ext.length ≤ 3) (he47 : (47 : UInt8) ∉ ext)
    (he92 : (92 : UInt8) ∉ ext) :
    niceName true (dir ++ 47 :: (base ++ 46 :: ext)) =
      makeValid false (if ext.map WildMask.lower = lit "nzb" then base else base ++ 46 :: ext) := by
  unfold niceName
  rw [baseName_append _ _ (by simp [h47, he47]) (by simp [h92, he92])]
  rw [List.take_of_length_le (by simp; omega)]
  dsimp only
  rw [if_pos rfl, lastIdx_append base hd]
  dsimp only
  rw [List.drop_left, List.take_left, List.map_cons]
  have e : lit ".nzb" = 46 :: lit "nzb" := rfl
  by_cases h : ext.map WildMask.lower = lit "nzb"
  · rw [if_pos h, if_pos (by rw [h, e, beq_iff_eq]; rfl)]
  · rw [if_neg h, if_neg (by
      rw [e, beq_iff_eq, List.cons.injEq]
      exact fun hh => h hh.2)]

example : niceName true (lit "/tmp/in/My.Show.S01.NZB") = lit "My.Show.S01" ∧
    niceName true (lit "/tmp/in/My.Show.gz") = lit "My.Show.gz" := by decide +kernel

/-- **C75.** The directory of a download with the name of any nzb-file is in the directory for downloads, or in that of
its category, if the category has no part `..`. -/
theorem dest_dir_inside_partial (destDir catDir : Bytes) (append ext : Bool) (category file : Bytes)
    (h : lit ".." ∉ parts anySlash category) :
    Below (if category ≠ [] ∧ catDir ≠ [] then catDir else destDir) (finalDir destDir catDir append category (niceName ext file)) := by
  have hn := parts_name ext file
  by_cases h1 : category = []
  · have e : finalDir destDir catDir append category (niceName ext file) = destDir ++ 47 :: niceName ext file := by
      subst h1; simp [finalDir]
    rw [if_neg (fun h => h.1 h1), e]
    exact ⟨_, rfl, hn⟩
  by_cases h2 : catDir = []
  · rw [if_neg (fun h => h.2 h2)]
    cases append with
    | false =>
      have e : finalDir destDir catDir false category (niceName ext file) = destDir ++ 47 :: niceName ext file := by
        subst h2; simp [finalDir]
      rw [e]
      exact ⟨_, rfl, hn⟩
    | true =>
      have e : finalDir destDir catDir true category (niceName ext file) =
          destDir ++ 47 :: (makeValid true category ++ 47 :: niceName ext file) := by
        subst h2; simp [finalDir, h1]
      rw [e]
      refine ⟨_, rfl, ?_⟩
      rw [parts_append _ _ (by decide), List.mem_append]
      rintro (h | h)
      · exact parts_valid category ‹_› h
      · exact hn h
  · have e : finalDir destDir catDir append category (niceName ext file) = catDir ++ 47 :: niceName ext file := by
      simp [finalDir, h1, h2]
    rw [if_pos ⟨h1, h2⟩, e]
    exact ⟨_, rfl, hn⟩

example : finalDir (lit "/d") [] true (lit "tv\\us") (niceName true (lit "../x/..a.nzb")) = lit "/d/tv/us/..a" ∧
    lit ".." ∉ parts anySlash (lit "tv\\us") := by decide +kernel

/-- **C75, violated.** A category `../x` leads out of the directory. -/
theorem category_escapes (destDir : Bytes) (file : Bytes) :
    finalDir destDir [] true (lit "..\\x") (niceName true file) = destDir ++ lit "/../x/" ++ niceName true file ∧
    ¬ Below destDir (finalDir destDir [] true (lit "..\\x") (niceName true file)) := by
  have e : finalDir destDir [] true (lit "..\\x") (niceName true file) = destDir ++ lit "/../x/" ++ niceName true file := by
    unfold finalDir
    have h : makeValid true (lit "..\\x") = lit "../x" := by decide +kernel
    dsimp only
    rw [h, if_pos (by decide), if_neg (by decide)]
    simp [lit]
  refine ⟨e, ?_⟩
  rintro ⟨rel, h1, h2⟩
  rw [e, List.append_assoc] at h1
  have h3 := List.append_cancel_left h1
  have h4 : rel = lit "../x/" ++ niceName true file := by
    have : lit "/../x/" ++ niceName true file = 47 :: (lit "../x/" ++ niceName true file) := rfl
    rw [this, List.cons.injEq] at h3
    exact h3.2.symm
  rw [h4] at h2
  apply h2
  have : lit "../x/" ++ niceName true file = lit ".." ++ 47 :: (lit "x" ++ 47 :: niceName true file) := rfl
  rw [this, parts_append _ _ (by decide), List.mem_append]
  exact Or.inl (by decide)

/-- **C75, violated.** Names of dots and blanks are sanitised to nothing: such a download has the directory of all
downloads as its own. -/
theorem empty_name_shares (destDir : Bytes) (append : Bool) (s : Bytes) (h : ∀ c ∈ s, c = 46 ∨ c = 32) :
    makeValid false s = [] ∧ finalDir destDir [] append [] (makeValid false s) = destDir ++ [47] := by
  have e : makeValid false s = [] := by
    have hm : s.map (validChar false) = s := by
      have := List.map_congr_left (f := validChar false) (g := id) (l := s) (fun c hc => validChar_id false (by
        rw [← reservedChar_iff]
        rcases h c hc with rfl | rfl <;> decide))
      rw [this, List.map_id]
    have hd : dropTrailing s = [] := by
      unfold dropTrailing
      rw [List.reverse_eq_nil_iff]
      have : ∀ l : Bytes, (∀ c ∈ l, c = 46 ∨ c = 32) → l.dropWhile (fun c => c == 46 || c == 32) = [] := by
        intro l
        induction l with
        | nil => intro _; rfl
        | cons x l ih =>
          intro hl
          rw [List.dropWhile_cons, if_pos (by rcases hl x List.mem_cons_self with rfl | rfl <;> decide)]
          exact ih (fun c hc => hl c (List.mem_cons_of_mem _ hc))
      exact this _ (fun c hc => h c (List.mem_reverse.mp hc))
    unfold makeValid
    dsimp only
    rw [hm, hd]
    decide
  refine ⟨e, ?_⟩
  rw [e]
  unfold finalDir
  simp

end Verif.FileName
