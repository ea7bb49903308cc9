import Verif.WildMask
/-
C36: a mask matches exactly the texts it describes, and matching always ends.
C57: the positions recorded for the wildcards (used for `${1}` in feed filters).
-/
namespace Verif.WildMask
open CStr

/-! ### Specification -/

/-- Two characters are equal apart from the case of the letters A-Z. -/
def SameLetter (a b : UInt8) : Prop :=
  a = b ∨ (97 ≤ b.toNat ∧ b.toNat ≤ 122 ∧ a.toNat + 32 = b.toNat) ∨
  (97 ≤ a.toNat ∧ a.toNat ≤ 122 ∧ b.toNat + 32 = a.toNat)

/-- What a mask means: `*` (42) stands for any text, `?` (63) for any character, `#` (35) for a digit
(48-57); every other character - and the `#` too - for itself, without regard to case. -/
inductive Glob : Bytes → Bytes → Prop
  | nil : Glob [] []
  | star (m t u) : Glob m u → Glob (42 :: m) (t ++ u)
  | any (m c u) : Glob m u → Glob (63 :: m) (c :: u)
  | digit (m c u) : 48 ≤ c.toNat → c.toNat ≤ 57 → Glob m u → Glob (35 :: m) (c :: u)
  | char (m a c u) : a ≠ 42 → SameLetter a c → Glob m u → Glob (a :: m) (c :: u)

/-! ### Lemmas -/

theorem lower_eq (a b : UInt8) : lower a = lower b ↔ SameLetter a b := by
  unfold lower SameLetter
  have ha := a.toNat_lt
  have hb := b.toNat_lt
  simp only [UInt8.toNat_inj.symm] at *
  by_cases h1 : 65 ≤ a.toNat ∧ a.toNat ≤ 90 <;> by_cases h2 : 65 ≤ b.toNat ∧ b.toNat ≤ 90 <;>
    simp only [h1, h2, if_true, UInt8.toNat_ofNat', and_self, if_neg, not_false_eq_true] <;> omega

theorem glob_cons_inv {p : UInt8} {m t : Bytes} (h : Glob (p :: m) t) :
    (p = 42 ∧ ∃ a u, t = a ++ u ∧ Glob m u) ∨
    (∃ c u, t = c :: u ∧ Glob m u ∧
      (p = 63 ∨ (p = 35 ∧ 48 ≤ c.toNat ∧ c.toNat ≤ 57) ∨ (p ≠ 42 ∧ SameLetter p c))) := by
  generalize hm : p :: m = m' at h
  cases h with
  | nil => cases hm
  | star _ a u h => cases hm; exact Or.inl ⟨rfl, a, u, rfl, h⟩
  | any _ c u h => cases hm; exact Or.inr ⟨c, u, rfl, h, Or.inl rfl⟩
  | digit _ c u h1 h2 h => cases hm; exact Or.inr ⟨c, u, rfl, h, Or.inr (Or.inl ⟨rfl, h1, h2⟩)⟩
  | char _ _ c u h1 h2 h => cases hm; exact Or.inr ⟨c, u, rfl, h, Or.inr (Or.inr ⟨h1, h2⟩)⟩

theorem glob_star_inv {m t : Bytes} (h : Glob (42 :: m) t) : ∃ a u, t = a ++ u ∧ Glob m u := by
  rcases glob_cons_inv h with ⟨_, h⟩ | ⟨c, u, _, _, h | ⟨h, _⟩ | ⟨h, _⟩⟩
  · exact h
  · exact absurd h (by decide)
  · exact absurd h (by decide)
  · exact absurd rfl h

theorem accepts_iff (p c : UInt8) (m u : Bytes) (hp : p ≠ 42) :
    Glob (p :: m) (c :: u) ↔ (accepts p c = true ∧ Glob m u) := by
  unfold accepts isDigit
  simp only [Bool.or_eq_true, beq_iff_eq, Bool.and_eq_true, decide_eq_true_eq, lower_eq]
  constructor
  · intro h
    rcases glob_cons_inv h with ⟨h, _⟩ | ⟨c', u', e, hg, h⟩
    · exact absurd h hp
    · simp only [List.cons.injEq] at e
      obtain ⟨rfl, rfl⟩ := e
      refine ⟨?_, hg⟩
      rcases h with h | h | h
      · exact Or.inl (Or.inr h)
      · exact Or.inr ⟨h.1, h.2.1, h.2.2⟩
      · exact Or.inl (Or.inl h.2)
  · rintro ⟨(h1 | h1) | ⟨h1, h2, h3⟩, h⟩
    · exact .char _ _ _ _ hp h1 h
    · subst h1; exact .any _ _ _ h
    · subst h1; exact .digit _ _ _ h2 h3 h

theorem glob_nil (m : Bytes) : Glob m [] ↔ skipStars m = [] := by
  induction m with
  | nil => exact ⟨fun _ => rfl, fun _ => .nil⟩
  | cons p m ih =>
    unfold skipStars
    by_cases hp : p = 42
    · subst hp
      rw [if_pos rfl, ← ih]
      constructor
      · intro h
        obtain ⟨a, u, e, h⟩ := glob_star_inv h
        rw [(List.append_eq_nil_iff.1 e.symm).2] at h
        exact h
      · exact fun h => .star _ [] _ h
    · rw [if_neg hp]
      constructor
      · intro h
        rcases glob_cons_inv h with ⟨h, _⟩ | ⟨c', u', e, _⟩
        · exact absurd h hp
        · cases e
      · intro h; cases h

theorem glob_star (m : Bytes) (c : UInt8) (u : Bytes) :
    Glob (42 :: m) (c :: u) ↔ (Glob m (c :: u) ∨ Glob (42 :: m) u) := by
  constructor
  · intro h
    obtain ⟨a, u', e, h⟩ := glob_star_inv h
    cases a with
    | nil => rw [List.nil_append] at e; rw [e]; exact Or.inl h
    | cons b a =>
      simp only [List.cons_append, List.cons.injEq] at e
      exact Or.inr (by rw [e.2]; exact .star _ _ _ h)
  · rintro (h | h)
    · exact .star _ [] _ h
    · obtain ⟨a, u', e, h⟩ := glob_star_inv h
      rw [e]
      exact .star _ (c :: a) _ h

/-- A star in front makes the part before the match irrelevant. -/
theorem glob_star_suffix {m a b : Bytes} (hs : a <:+ b) (h : Glob (42 :: m) a) : Glob (42 :: m) b := by
  obtain ⟨x, rfl⟩ := hs
  obtain ⟨y, u, e, h'⟩ := glob_star_inv h
  rw [e, ← List.append_assoc]
  exact Glob.star _ (x ++ y) _ h'

/-- The part of a mask without stars consumes as many characters as it has. -/
theorem glob_split {q m : Bytes} (hq : 42 ∉ q) {t : Bytes} (h : Glob (q ++ m) t) :
    q.length ≤ t.length ∧ Glob m (t.drop q.length) := by
  induction q generalizing t with
  | nil => exact ⟨Nat.zero_le _, h⟩
  | cons p q ih =>
    have hp : p ≠ 42 := fun e => hq (by rw [e]; exact List.mem_cons_self ..)
    have hq' : 42 ∉ q := fun e => hq (List.mem_cons_of_mem _ e)
    cases t with
    | nil =>
      have := (glob_nil _).1 h
      simp only [List.cons_append, skipStars, if_neg hp] at this
      cases this
    | cons c t =>
      have := ih hq' ((accepts_iff p c _ _ hp).1 h).2
      simp only [List.length_cons, List.drop_succ_cons]
      exact ⟨by omega, this.2⟩

/-- The invariant of the second loop: between the last star and the current position the mask has no
star, and the next retry is not further left than that. -/
def Inv (s : S) : Prop :=
  ∃ q, s.wpos = q ++ s.pat ∧ 42 ∉ q ∧ s.spos.drop q.length <:+ s.str

theorem inv_backtrack (w : Bool) (s : S) : Inv (backtrack w s) :=
  ⟨[], rfl, List.not_mem_nil, by
    show s.spos.tail.drop 0 <:+ s.spos
    rw [List.drop_zero]; exact List.tail_suffix _⟩

theorem tail_suffix_of {c : UInt8} {x l : Bytes} (h : x <:+ c :: l) : x.drop 1 <:+ l := by
  rcases List.suffix_cons_iff.1 h with h | h
  · subst h; exact List.suffix_refl _
  · exact (List.drop_suffix _ _).trans h

theorem inv_next {s : S} {p c : UInt8} {pat' str' : Bytes} (h : Inv s) (hp : s.pat = p :: pat')
    (hs : s.str = c :: str') (h42 : p ≠ 42) (s' : S) (e1 : s'.wpos = s.wpos) (e2 : s'.spos = s.spos)
    (e3 : s'.pat = pat') (e4 : s'.str = str') : Inv s' := by
  obtain ⟨q, h1, h2, h3⟩ := h
  refine ⟨q ++ [p], ?_, ?_, ?_⟩
  · rw [e1, h1, e3, hp, List.append_assoc]; rfl
  · intro hm
    rcases List.mem_append.1 hm with hm | hm
    · exact h2 hm
    · exact h42 (List.mem_singleton.1 hm).symm
  · rw [e2, e4, List.length_append, ← List.drop_drop]
    rw [hs] at h3
    exact tail_suffix_of h3

/-- What a state of the second loop is still able to match. -/
def Can (s : S) : Prop := Glob s.pat s.str ∨ Glob (42 :: s.wpos) s.spos

theorem can_backtrack (w : Bool) (s : S) (hn : ¬ Glob s.pat s.str) :
    Can s ↔ Can (backtrack w s) := by
  unfold Can
  show _ ↔ Glob s.wpos s.spos ∨ Glob (42 :: s.wpos) s.spos.tail
  cases hs : s.spos with
  | nil =>
    have : Glob (42 :: s.wpos) [] ↔ Glob s.wpos [] := by
      rw [glob_nil, glob_nil, skipStars, if_pos rfl]
    rw [List.tail_nil, this]
    exact ⟨fun h => h.elim (fun h => absurd h hn) Or.inl, fun h => Or.inr (h.elim id id)⟩
  | cons c t =>
    rw [List.tail_cons, glob_star]
    exact ⟨fun h => h.elim (fun h => absurd h hn) id, Or.inr⟩

/-- The text which may be matched by a retry can be matched from here, when a star is next. -/
theorem retry_subsumed {s : S} {pat' : Bytes} (h : Inv s) (hp : s.pat = 42 :: pat')
    (hg : Glob (42 :: s.wpos) s.spos) : Glob s.pat s.str := by
  obtain ⟨q, h1, h2, h3⟩ := h
  obtain ⟨a, u, e, hg⟩ := glob_star_inv hg
  rw [h1] at hg
  obtain ⟨hl, hg⟩ := glob_split h2 hg
  rw [hp] at hg ⊢
  refine glob_star_suffix ?_ hg
  refine List.IsSuffix.trans ?_ h3
  have e2 : u.drop q.length = (a ++ u).drop (q.length + a.length) := by
    rw [Nat.add_comm, ← List.drop_drop, List.drop_left]
  rw [e, e2, ← List.drop_drop]
  exact List.drop_suffix _ _

/-- At the end of the text nothing can be gained by a retry. -/
theorem retry_at_end {s : S} (h : Inv s) (hs : s.str = []) (hg : Glob (42 :: s.wpos) s.spos) :
    Glob s.pat [] := by
  obtain ⟨q, h1, h2, h3⟩ := h
  obtain ⟨a, u, e, hg⟩ := glob_star_inv hg
  rw [h1] at hg
  obtain ⟨hl, hg⟩ := glob_split h2 hg
  have h4 : (s.spos.drop q.length).length ≤ 0 := by rw [hs] at h3; exact h3.length_le
  rw [e, List.length_drop, List.length_append] at h4
  have : u.drop q.length = [] := List.drop_eq_nil_of_le (by omega)
  rw [this] at hg
  exact hg

/-- How many passes may still be made, for a text of `n` characters. -/
def left (n : Nat) (s : S) : Nat :=
  s.wpos.length * ((n + 1) * (n + 1)) + s.spos.length * (n + 1) + s.str.length

/-- The rests are not longer than the text. -/
def Fits (n : Nat) (s : S) : Prop := s.spos.length ≤ n ∧ s.str.length ≤ n

theorem left_backtrack (w : Bool) {n : Nat} {s : S} (hf : Fits n s) (hs : s.str ≠ []) :
    Fits n (backtrack w s) ∧ left n (backtrack w s) < left n s := by
  obtain ⟨h1, h2⟩ := hf
  have hl : 0 < s.str.length := List.length_pos_iff.2 hs
  refine ⟨⟨?_, h1⟩, ?_⟩
  · show s.spos.tail.length ≤ n
    rw [List.length_tail]; omega
  · show s.wpos.length * ((n + 1) * (n + 1)) + s.spos.tail.length * (n + 1) + s.spos.length < left n s
    unfold left
    rw [List.length_tail]
    generalize s.wpos.length * ((n + 1) * (n + 1)) = x
    cases hk : s.spos.length with
    | zero => simp only [Nat.zero_sub, Nat.zero_mul]; omega
    | succ k =>
      rw [Nat.add_sub_cancel, Nat.add_mul, Nat.one_mul]
      generalize k * (n + 1) = y
      omega

theorem left_star {n : Nat} {s s' : S} {pat' : Bytes} (hf : Fits n s)
    (hw : pat'.length < s.wpos.length) (hs : s.str ≠ []) (e1 : s'.wpos = pat')
    (e2 : s'.spos = s.str.tail) (e3 : s'.str = s.str) : Fits n s' ∧ left n s' < left n s := by
  obtain ⟨h1, h2⟩ := hf
  have hl : 0 < s.str.length := List.length_pos_iff.2 hs
  have ht : s.str.tail.length + 1 = s.str.length := by rw [List.length_tail]; omega
  refine ⟨⟨?_, ?_⟩, ?_⟩
  · rw [e2]; omega
  · rw [e3]; exact h2
  · unfold left
    rw [e1, e2, e3]
    have h3 : (pat'.length + 1) * ((n + 1) * (n + 1)) ≤ s.wpos.length * ((n + 1) * (n + 1)) :=
      Nat.mul_le_mul_right _ hw
    rw [Nat.add_mul, Nat.one_mul] at h3
    have h4 : (s.str.tail.length + 1) * (n + 1) ≤ n * (n + 1) := Nat.mul_le_mul_right _ (by omega)
    have h5 : (n + 1) * (n + 1) = n * (n + 1) + (n + 1) := by rw [Nat.add_mul, Nat.one_mul]
    rw [Nat.add_mul, Nat.one_mul] at h4
    generalize pat'.length * ((n + 1) * (n + 1)) = x at *
    generalize s.wpos.length * ((n + 1) * (n + 1)) = y at *
    generalize (n + 1) * (n + 1) = z at *
    generalize n * (n + 1) = v at *
    generalize s.str.tail.length * (n + 1) = t at *
    omega

/-- What a pass has to keep. -/
def PassOk (n : Nat) (s : S) : Pass → Prop
  | .stop res _ => (res = true ↔ Can s)
  | .next s' => Inv s' ∧ Fits n s' ∧ left n s' < left n s ∧ (Can s ↔ Can s')

/-- One pass of the second loop from a state which is consistent. -/
theorem pass_spec (w : Bool) (n : Nat) (s : S) (h : Inv s) (hf : Fits n s) :
    PassOk n s (pass w s) := by
  unfold pass
  split
  next pat hs =>
    show _ = true ↔ Can s
    rw [List.isEmpty_iff, ← glob_nil]
    unfold Can
    rw [hs]
    exact ⟨Or.inl, fun h' => h'.elim id (retry_at_end h hs)⟩
  next c str' p pat' hs hp =>
    by_cases h42 : p = 42
    · rw [if_pos h42]
      subst h42
      have hsub := retry_subsumed h hp
      unfold onStar
      dsimp only
      by_cases hn : pat' = []
      · rw [if_pos hn]
        refine ⟨fun _ => Or.inl ?_, fun _ => rfl⟩
        rw [hp, hn]
        exact (List.append_nil s.str) ▸ Glob.star [] s.str [] .nil
      · rw [if_neg hn]
        have hlen : pat'.length < s.wpos.length := by
          obtain ⟨q, h1, _⟩ := h
          rw [h1, hp, List.length_append, List.length_cons]; omega
        have hl := left_star (s' := { s with pat := pat', wpos := pat', spos := s.str.tail, sidx := s.pos + 1 })
          hf hlen (by rw [hs]; exact List.cons_ne_nil _ _) rfl rfl rfl
        refine ⟨⟨[], rfl, List.not_mem_nil, ?_⟩, hl.1, hl.2, ?_⟩
        · exact List.tail_suffix _
        · unfold Can
          show (Glob s.pat s.str ∨ Glob (42 :: s.wpos) s.spos) ↔
            (Glob pat' s.str ∨ Glob (42 :: pat') s.str.tail)
          rw [hs, List.tail_cons, ← glob_star, ← hp, ← hs]
          exact ⟨fun h' => h'.elim id hsub, Or.inl⟩
    · rw [if_neg h42]
      have hacc := accepts_iff p c pat' str' h42
      have hstep : ∀ s' : S, s'.wpos = s.wpos → s'.spos = s.spos → s'.pat = pat' → s'.str = str' →
          accepts p c = true → Inv s' ∧ Fits n s' ∧ left n s' < left n s ∧ (Can s ↔ Can s') := by
        intro s' e1 e2 e3 e4 ha
        have h2 := hf.2
        rw [hs, List.length_cons] at h2
        refine ⟨inv_next h hp hs h42 s' e1 e2 e3 e4, ⟨?_, ?_⟩, ?_, ?_⟩
        · rw [e2]; exact hf.1
        · rw [e4]; omega
        · unfold left
          rw [e1, e2, e4, hs, List.length_cons]; omega
        · unfold Can
          rw [e1, e2, e3, e4, hp, hs, hacc, ha]
          simp only [true_and]
      by_cases hq : (p == 63 || p == 35 && isDigit c) = true
      · rw [if_pos hq]
        refine hstep _ rfl rfl rfl rfl ?_
        unfold accepts
        simp only [Bool.or_eq_true, Bool.and_eq_true] at hq ⊢
        rcases hq with hq | hq
        · exact Or.inl (Or.inr hq)
        · exact Or.inr hq
      · rw [if_neg hq]
        by_cases hlo : (lower p == lower c) = true
        · rw [if_pos hlo]
          refine hstep _ rfl rfl rfl rfl ?_
          unfold accepts
          rw [hlo]; rfl
        · rw [if_neg hlo]
          have hn : ¬ Glob s.pat s.str := by
            rw [hp, hs, hacc]
            intro h'
            have ha := h'.1
            unfold accepts at ha
            simp only [Bool.or_eq_true, Bool.and_eq_true] at hq ha
            rcases ha with (ha | ha) | ha
            · exact hlo ha
            · exact hq (Or.inl ha)
            · exact hq (Or.inr ha)
          have hl := left_backtrack w hf (s := s) (by rw [hs]; exact List.cons_ne_nil _ _)
          exact ⟨inv_backtrack w s, hl.1, hl.2, can_backtrack w s hn⟩
  next c str' hs hp =>
    have hn : ¬ Glob s.pat s.str := by
      rw [hp, hs]; intro h'; cases h'
    have hl := left_backtrack w hf (s := s) (by rw [hs]; exact List.cons_ne_nil _ _)
    exact ⟨inv_backtrack w s, hl.1, hl.2, can_backtrack w s hn⟩

theorem loop_spec (w : Bool) (n : Nat) : ∀ (k : Nat) (s : S), Inv s → Fits n s → left n s < k →
    ∃ res refs, loop w k s = some (res, refs) ∧ (res = true ↔ Can s) := by
  intro k
  induction k with
  | zero => intro s _ _ h; omega
  | succ k ih =>
    intro s hi hf hl
    have hp := pass_spec w n s hi hf
    unfold loop
    split
    next res refs e => rw [e] at hp; exact ⟨res, refs, rfl, hp⟩
    next s' e =>
      rw [e] at hp
      obtain ⟨h1, h2, h3, h4⟩ := hp
      obtain ⟨res, refs, h5, h6⟩ := ih s' h1 h2 (by omega)
      exact ⟨res, refs, h5, h6.trans h4.symm⟩

/-- The first loop: either the rest decides, or the text cannot match. -/
theorem prefix_spec (w : Bool) : ∀ (text mask : Bytes) (pos : Nat) (refs : List Ref) (qm : Bool),
    match prefixLoop w mask text pos refs qm with
    | none => ¬ Glob mask text
    | some s => (Glob mask text ↔ Glob s.pat s.str) ∧ s.str.length ≤ text.length ∧
        s.pat.length ≤ mask.length ∧ (s.str = [] ∨ s.pat.head? = some 42) := by
  intro text
  induction text with
  | nil =>
    intro mask pos refs qm
    unfold prefixLoop
    exact ⟨Iff.rfl, Nat.le_refl _, Nat.le_refl _, Or.inl rfl⟩
  | cons c text ih =>
    intro mask pos refs qm
    cases mask with
    | nil =>
      unfold prefixLoop
      intro h; cases h
    | cons p mask =>
      unfold prefixLoop
      by_cases h42 : p = 42
      · rw [if_pos h42]
        exact ⟨Iff.rfl, Nat.le_refl _, Nat.le_refl _, Or.inr (by rw [h42]; rfl)⟩
      · rw [if_neg h42]
        dsimp only
        by_cases ha : accepts p c = true
        · rw [if_pos ha]
          generalize (if (w && (p == 63 || p == 35)) = true then if qm = true then refs else push pos refs
            else if (w && qm) = true then close pos refs else refs) = refs'
          generalize (if (w && (p == 63 || p == 35)) = true then true
            else if (w && qm) = true then false else qm) = qm'
          have := ih mask (pos + 1) refs' qm'
          split
          next e =>
            rw [e] at this
            intro hg
            exact this ((accepts_iff p c _ _ h42).1 hg).2
          next s e =>
            rw [e] at this
            obtain ⟨h1, h2, h3, h4⟩ := this
            refine ⟨?_, ?_, ?_, h4⟩
            · rw [accepts_iff p c _ _ h42, ← h1]; exact ⟨fun h => h.2, fun h => ⟨ha, h⟩⟩
            · rw [List.length_cons]; omega
            · rw [List.length_cons]; omega
        · rw [if_neg ha]
          intro hg
          exact ha ((accepts_iff p c _ _ h42).1 hg).1

/-! ### C36 -/

/-- **C36.** For every mask and every text, matching ends, and it succeeds exactly if the text is one
of those the mask stands for - whether positions are recorded or not. -/
theorem mask_meaning (wants : Bool) (mask text : Bytes) :
    ∃ res refs, run wants mask text = some (res, refs) ∧ (res = true ↔ Glob mask text) := by
  have hp := prefix_spec wants text mask 0 [] false
  unfold run
  split
  next e =>
    rw [e] at hp
    exact ⟨false, [], rfl, by simp only [Bool.false_eq_true, false_iff]; exact hp⟩
  next s e =>
    rw [e] at hp
    obtain ⟨h1, h2, h3, h4⟩ := hp
    suffices hs : ∃ res refs, loop wants (passes mask text) s = some (res, refs) ∧
        (res = true ↔ Glob s.pat s.str) by
      obtain ⟨res, refs, h5, h6⟩ := hs
      exact ⟨res, refs.reverse, by rw [h5]; rfl, h6.trans h1.symm⟩
    unfold passes loop
    cases hstr : s.str with
    | nil =>
      have : pass wants s = finish wants s := by unfold pass; rw [hstr]
      rw [this]
      unfold finish
      dsimp only
      exact ⟨_, _, rfl, by rw [List.isEmpty_iff, ← glob_nil]⟩
    | cons c str' =>
      rcases h4 with h4 | h4
      · rw [hstr] at h4; cases h4
      · obtain ⟨pat', hpat⟩ : ∃ pat', s.pat = 42 :: pat' := by
          cases hq : s.pat with
          | nil => rw [hq] at h4; cases h4
          | cons a l => rw [hq] at h4; simp only [List.head?_cons, Option.some.injEq] at h4; exact ⟨l, by rw [h4]⟩
        have : pass wants s = onStar wants s pat' := by unfold pass; rw [hstr, hpat]; rfl
        rw [this]
        unfold onStar
        dsimp only
        by_cases hn : pat' = []
        · rw [if_pos hn]
          dsimp only
          refine ⟨true, _, rfl, ?_⟩
          simp only [true_iff]
          rw [hpat, hn]
          exact (List.append_nil (c :: str')) ▸ Glob.star [] (c :: str') [] .nil
        · rw [if_neg hn]
          dsimp only
          generalize hs' : ({ s with pat := pat', wpos := pat', spos := s.str.tail, sidx := s.pos + 1, refs := _, qmark := _, star := _ } : S) = s'
          have f1 : s'.pat = pat' := by rw [← hs']
          have f2 : s'.str = c :: str' := by rw [← hs']; exact hstr
          have f3 : s'.wpos = pat' := by rw [← hs']
          have f4 : s'.spos = str' := by rw [← hs']; show s.str.tail = str'; rw [hstr]; rfl
          have hsl : str'.length + 1 ≤ text.length := by rw [hstr] at h2; exact h2
          have hpl : pat'.length + 1 ≤ mask.length := by rw [hpat] at h3; exact h3
          have hi : Inv s' := ⟨[], by rw [f1, f3]; rfl, List.not_mem_nil, by
            rw [f2, f4]; exact List.suffix_cons _ _⟩
          have hfit : Fits text.length s' := ⟨by rw [f4]; omega, by rw [f2, List.length_cons]; omega⟩
          have hlt : left text.length s' < (mask.length + 1) * ((text.length + 1) * (text.length + 1)) := by
            unfold left
            rw [f2, f3, f4, List.length_cons]
            have g1 : (pat'.length + 1) * ((text.length + 1) * (text.length + 1)) ≤
                (mask.length + 1) * ((text.length + 1) * (text.length + 1)) :=
              Nat.mul_le_mul_right _ (by omega)
            have g2 : (str'.length + 1) * (text.length + 1) ≤ text.length * (text.length + 1) :=
              Nat.mul_le_mul_right _ hsl
            have g3 : (text.length + 1) * (text.length + 1) = text.length * (text.length + 1) + (text.length + 1) := by
              rw [Nat.add_mul, Nat.one_mul]
            rw [Nat.add_mul, Nat.one_mul] at g1 g2
            generalize pat'.length * ((text.length + 1) * (text.length + 1)) = x at *
            generalize (mask.length + 1) * ((text.length + 1) * (text.length + 1)) = y at *
            generalize (text.length + 1) * (text.length + 1) = z at *
            generalize text.length * (text.length + 1) = v at *
            generalize str'.length * (text.length + 1) = t at *
            omega
          obtain ⟨res, refs, h5, h6⟩ := loop_spec wants text.length _ s' hi hfit hlt
          refine ⟨res, refs, h5, h6.trans ?_⟩
          unfold Can
          rw [f1, f2, f3, f4, hpat, glob_star]

/-- C36 for the result alone. -/
theorem matches_iff (mask text : Bytes) : matches? mask text = true ↔ Glob mask text := by
  obtain ⟨res, refs, h1, h2⟩ := mask_meaning false mask text
  unfold matches?
  rw [h1]
  exact h2

/- The hypotheses are empty; these are cases where several retries are needed. -/
example : matches? (lit "*a?b#*.NZB") (lit "xaabaab7-7.nzb") = true := by decide +kernel
example : matches? (lit "*a?b#*.NZB") (lit "xaabaab-7.nzb") = false := by decide +kernel
example : Glob (lit "*ab*") (lit "aab") := (matches_iff _ _).1 (by decide +kernel)

end Verif.WildMask
