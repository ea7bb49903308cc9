import Verif.LogRotate
import Verif.WildRefProps

/-
Log files with a date in the name: which of them are deleted, and which one is written to (C141).
-/
namespace Verif.LogRotate
open CStr Calendar WildMask

/-! ### Specification -/

/-- The same text without regard to case. -/
inductive Same : Bytes → Bytes → Prop
  | nil : Same [] []
  | cons {a b : UInt8} {l m : Bytes} : SameLetter a b → Same l m → Same (a :: l) (b :: m)

/-- The name of a log file: the base name, four characters for the year, two for the month and two for the day, the extension. -/
structure IsLog (base ext name y m d : Bytes) : Prop where
  split : ∃ b e, name = b ++ 45 :: (y ++ 45 :: (m ++ 45 :: (d ++ e))) ∧ Same base b ∧ Same ext e
  ly : y.length = 4
  lm : m.length = 2
  ld : d.length = 2
  digits : ∀ x ∈ y ++ m ++ d, isDigit x = true ∨ x = 35

/-- No `*`, `?` or `#`. -/
def Plain (b : Bytes) : Prop := ∀ p ∈ b, p ≠ 42 ∧ ¬ IsWild p

/-! ### Positions -/

theorem Same.length_eq {a b : Bytes} (h : Same a b) : a.length = b.length := by
  induction h with
  | nil => rfl
  | cons _ _ ih => simp [ih]

theorem Same.refl : ∀ a : Bytes, Same a a
  | [] => .nil
  | _ :: l => .cons (.inl rfl) (Same.refl l)

theorem refs_plain : ∀ (b : Bytes) (pos : Nat) (m t : Bytes) (g : List Ref), Plain b → Refs pos (b ++ m) t g →
    ∃ b' u, t = b' ++ u ∧ Same b b' ∧ Refs (pos + b.length) m u g := by
  intro b
  induction b with
  | nil => intro pos m t g _ h; exact ⟨[], t, rfl, .nil, h⟩
  | cons a b ih =>
    intro pos m t g hp h
    have ha := hp a (by simp)
    generalize hk : a :: b ++ m = k at h
    cases h with
    | nil => simp at hk
    | char _ a' c m' u _ h1 h2 h3 h4 =>
      simp only [List.cons_append, List.cons.injEq] at hk
      obtain ⟨rfl, rfl⟩ := hk
      obtain ⟨b', v, e1, e2, e3⟩ := ih _ _ _ _ (fun p hp' => hp p (by simp [hp'])) h4
      refine ⟨c :: b', v, by rw [e1]; rfl, .cons h3 e2, ?_⟩
      rw [List.length_cons, Nat.add_comm b.length, ← Nat.add_assoc]
      exact e3
    | star _ _ _ _ _ => simp at hk; exact absurd hk.1 ha.1
    | stars _ _ _ _ => simp at hk; exact absurd hk.1 ha.1
    | wild _ q m' _ _ _ h1 h2 _ _ _ =>
      cases q with
      | nil => exact absurd rfl h1
      | cons x q =>
        simp at hk
        exact absurd (h2 x (by simp)) (hk.1 ▸ ha.2)

theorem wild_split : ∀ (q q' m m' : Bytes), (∀ p ∈ q, IsWild p) → (∀ p ∈ q', IsWild p) → (∀ p, m.head? = some p → ¬ IsWild p) →
    (∀ p, m'.head? = some p → ¬ IsWild p) → q ++ m = q' ++ m' → q = q' ∧ m = m' := by
  intro q
  induction q with
  | nil =>
    intro q' m m' _ h2 h3 _ h
    cases q' with
    | nil => exact ⟨rfl, h⟩
    | cons x q' =>
      rw [List.nil_append] at h
      exact absurd (h2 x (by simp)) (h3 x (by rw [h]; rfl))
  | cons a q ih =>
    intro q' m m' h1 h2 h3 h4 h
    cases q' with
    | nil =>
      rw [List.nil_append] at h
      exact absurd (h1 a (by simp)) (h4 a (by rw [← h]; rfl))
    | cons x q' =>
      simp only [List.cons_append, List.cons.injEq] at h
      obtain ⟨e1, e2⟩ := ih q' m m' (fun p hp => h1 p (by simp [hp])) (fun p hp => h2 p (by simp [hp])) h3 h4 h.2
      exact ⟨by rw [h.1, e1], e2⟩

theorem refs_wild (q : Bytes) (pos : Nat) (m t : Bytes) (g : List Ref) (hq : q ≠ []) (hw : ∀ p ∈ q, IsWild p)
    (hm : ∀ p, m.head? = some p → ¬ IsWild p) (h : Refs pos (q ++ m) t g) :
    ∃ t' u g', t = t' ++ u ∧ Glob q t' ∧ g = ⟨pos, t'.length⟩ :: g' ∧ Refs (pos + t'.length) m u g' := by
  obtain ⟨a, q0, rfl⟩ : ∃ a q0, q = a :: q0 := by cases q with | nil => exact absurd rfl hq | cons a q0 => exact ⟨a, q0, rfl⟩
  have ha : IsWild a := hw a (by simp)
  have h42 : a ≠ 42 := by intro z; rw [z] at ha; exact absurd ha (by decide)
  generalize hk : a :: q0 ++ m = k at h
  cases h with
  | nil => simp at hk
  | char _ a' c m' u _ h1 h2 h3 h4 =>
    simp only [List.cons_append, List.cons.injEq] at hk
    exact absurd (hk.1 ▸ ha) h2
  | star _ _ _ _ _ => simp at hk; exact absurd hk.1 h42
  | stars _ _ _ _ => simp at hk; exact absurd hk.1 h42
  | wild _ q' m' t' u g' h1 h2 h3 h4 h5 =>
    obtain ⟨e1, e2⟩ := wild_split _ _ _ _ hw h2 hm h3 hk
    subst e1 e2
    exact ⟨t', u, g', rfl, h4, rfl, h5⟩

theorem glob_digits : ∀ (n : Nat) (t : Bytes), Glob (List.replicate n 35) t → t.length = n ∧ ∀ x ∈ t, isDigit x = true ∨ x = 35 := by
  intro n
  induction n with
  | zero =>
    intro t h
    cases h
    exact ⟨rfl, by simp⟩
  | succ n ih =>
    intro t h
    rw [List.replicate_succ] at h
    cases h with
    | digit m c u h1 h2 h3 =>
      obtain ⟨e1, e2⟩ := ih _ h3
      refine ⟨by simp [e1], ?_⟩
      intro x hx
      rcases List.mem_cons.1 hx with rfl | hx
      · left; simp [isDigit, h1, h2]
      · exact e2 x hx
    | char m a c u h1 h2 h3 =>
      obtain ⟨e1, e2⟩ := ih _ h3
      refine ⟨by simp [e1], ?_⟩
      intro x hx
      rcases List.mem_cons.1 hx with rfl | hx
      · right
        rcases h2 with z | z | z
        · exact z.symm
        · have : (35 : UInt8).toNat = 35 := rfl
          omega
        · have : (35 : UInt8).toNat = 35 := rfl
          omega
      · exact e2 x hx

theorem glob_of_digits : ∀ (t : Bytes), (∀ x ∈ t, isDigit x = true ∨ x = 35) → ∀ m u, Glob m u → Glob (List.replicate t.length 35 ++ m) (t ++ u) := by
  intro t
  induction t with
  | nil => intro _ m u h; exact h
  | cons c t ih =>
    intro h m u hg
    have := ih (fun x hx => h x (by simp [hx])) m u hg
    rw [List.length_cons, List.replicate_succ]
    rcases h c (by simp) with z | z
    · simp only [isDigit, Bool.and_eq_true, decide_eq_true_eq] at z
      exact .digit _ _ _ z.1 z.2 this
    · rw [z]; exact .char _ _ _ _ (by decide) (.inl rfl) this

theorem glob_of_same : ∀ (a b : Bytes), Plain a → Same a b → ∀ m u, Glob m u → Glob (a ++ m) (b ++ u) := by
  intro a b hp h
  induction h with
  | nil => intro m u hg; exact hg
  | cons h1 _ ih =>
    intro m u hg
    exact .char _ _ _ _ (hp _ (by simp)).1 h1 (ih (fun p q => hp p (by simp [q])) m u hg)

theorem same_minus {c : UInt8} (h : SameLetter 45 c) : c = 45 := by
  have : (45 : UInt8).toNat = 45 := rfl
  rcases h with z | z | z
  · exact z.symm
  · omega
  · omega

theorem minus_inv {pos : Nat} {m t : Bytes} {g : List Ref} (h : Refs pos (45 :: m) t g) : ∃ u, t = 45 :: u ∧ Refs (pos + 1) m u g := by
  have hp : Plain [45] := by intro p hp; rw [List.mem_singleton] at hp; subst hp; exact ⟨by decide, by decide⟩
  obtain ⟨b, u, e1, e2, e3⟩ := refs_plain [45] pos m t g hp h
  cases e2 with
  | cons h1 h2 =>
    cases h2
    exact ⟨u, by rw [e1, same_minus h1]; rfl, e3⟩

theorem mask_eq (c : Config) (hlen : c.logFile.length ≤ 1000) : mask c = base c ++ (45 :: (List.replicate 4 35 ++ 45 :: (List.replicate 2 35 ++ 45 ::
    (List.replicate 2 35 ++ ext c)))) := by
  have h1 : (base c).length + (ext c).length = (fileName c).length := by
    unfold base ext
    cases hd : dot c with
    | none => simp
    | some i => dsimp only; rw [← List.length_append, List.take_append_drop]
  have h2 : (fileName c).length ≤ 1000 := by
    unfold fileName FileName.baseName
    rw [List.length_reverse]
    have := (List.takeWhile_prefix (fun c : UInt8 => !(c == 47 || c == 92)) (l := (c.logFile.take 1023).reverse)).length_le
    rw [List.length_reverse, List.length_take] at this
    omega
  have h3 : (lit "-####-##-##").length = 11 := rfl
  unfold mask
  rw [List.take_of_length_le (by simp only [List.length_append]; omega)]
  rfl

/-- The names which match, and the positions of the three numbers. -/
theorem match_iff (c : Config) (name : Bytes) (refs : List Ref) (hlen : c.logFile.length ≤ 1000) (hb : Plain (base c)) (he : Plain (ext c))
    (h : WildMask.run true (mask c) name = some (true, refs)) : ∃ y m d b e, name = b ++ 45 :: (y ++ 45 :: (m ++ 45 :: (d ++ e))) ∧
      IsLog (base c) (ext c) name y m d ∧ (refs[0]?).elim 0 (·.start) = b.length + 1 ∧ (refs[1]?).elim 0 (·.start) = b.length + 6 ∧
      (refs[2]?).elim 0 (·.start) = b.length + 9 ∧ Same (ext c) e := by
  have hst : (42 : UInt8) ∉ mask c := by
    rw [mask_eq c hlen]
    intro hm
    simp only [List.mem_append, List.mem_cons, List.mem_replicate] at hm
    rcases hm with q | q | q | q | q | q | q | q
    · exact (hb _ q).1 rfl
    · exact absurd q (by decide)
    · exact absurd q.2 (by decide)
    · exact absurd q (by decide)
    · exact absurd q.2 (by decide)
    · exact absurd q (by decide)
    · exact absurd q.2 (by decide)
    · exact (he _ q).1 rfl
  have hr := refs_without_star_partial _ _ _ hst h
  rw [mask_eq c hlen] at hr
  have hw : ∀ n, ∀ p ∈ List.replicate n (35 : UInt8), IsWild p := by
    intro n p hp; rw [(List.mem_replicate.1 hp).2]; exact .inr rfl
  have hmin : ∀ (l : Bytes) (p : UInt8), (45 :: l).head? = some p → ¬ IsWild p := by
    intro l p hp; simp at hp; subst hp; decide
  obtain ⟨b, u1, e1, hsb, hr⟩ := refs_plain _ _ _ _ _ hb hr
  obtain ⟨u2, e2, hr⟩ := minus_inv hr
  obtain ⟨y, u3, g1, e3, hy, eg1, hr⟩ := refs_wild _ _ _ _ _ (by decide) (hw 4) (hmin _) hr
  obtain ⟨u4, e4, hr⟩ := minus_inv hr
  obtain ⟨m, u5, g2, e5, hm, eg2, hr⟩ := refs_wild _ _ _ _ _ (by decide) (hw 2) (hmin _) hr
  obtain ⟨u6, e6, hr⟩ := minus_inv hr
  obtain ⟨d, u7, g3, e7, hd, eg3, hr⟩ := refs_wild _ _ _ _ _ (by decide) (hw 2) (by
    intro p hp
    exact (he p (List.mem_of_head? hp)).2) hr
  have hr' : Refs (0 + (base c).length + 1 + y.length + 1 + m.length + 1 + d.length) (ext c ++ []) u7 g3 := by rw [List.append_nil]; exact hr
  obtain ⟨e, u8, e8, hse, hr⟩ := refs_plain _ _ _ _ _ he hr'
  have hnil : u8 = [] := by
    generalize hk : ([] : Bytes) = k at hr
    cases hr with
    | nil => rfl
    | char => simp at hk
    | star => simp at hk
    | stars => simp at hk
    | wild _ q _ _ _ _ h1 =>
      cases q with
      | nil => exact absurd rfl h1
      | cons => simp at hk
  subst hnil
  rw [List.append_nil] at e8
  have ly := glob_digits 4 y hy
  have lm := glob_digits 2 m hm
  have ld := glob_digits 2 d hd
  have hname : name = b ++ 45 :: (y ++ 45 :: (m ++ 45 :: (d ++ e))) := by rw [e1, e2, e3, e4, e5, e6, e7, e8]
  have hbl : b.length = (base c).length := (hsb.length_eq).symm
  refine ⟨y, m, d, b, e, hname, ⟨⟨b, e, hname, hsb, hse⟩, ly.1, lm.1, ld.1, ?_⟩, ?_, ?_, ?_, hse⟩
  · intro x hx
    rcases List.mem_append.1 hx with hx | hx
    · rcases List.mem_append.1 hx with hx | hx
      · exact ly.2 x hx
      · exact lm.2 x hx
    · exact ld.2 x hx
  · rw [eg1]; simp [hbl]
  · rw [eg1, eg2]; simp [hbl, ly.1]
  · rw [eg1, eg2, eg3]; simp [hbl, ly.1, lm.1]

/-! ### Numbers -/

theorem digits_append : ∀ (p : Bytes) (acc : Nat) (rest : Bytes), (∀ b ∈ rest.head?, isDigit b = false) → digits acc (p ++ rest) = digits acc p := by
  intro p
  induction p with
  | nil =>
    intro acc rest h
    cases rest with
    | nil => rfl
    | cons b r => simp [digits, h b (by simp)]
  | cons a p ih =>
    intro acc rest h
    simp only [List.cons_append, digits]
    split
    · exact ih _ _ h
    · rfl

theorem digits_lt : ∀ (p : Bytes) (acc : Nat), digits acc p < (acc + 1) * 10 ^ p.length := by
  intro p
  induction p with
  | nil => intro acc; simp [digits]
  | cons a p ih =>
    intro acc
    simp only [digits, List.length_cons]
    have hpos : 0 < 10 ^ p.length := Nat.pow_pos (by omega)
    split
    · rename_i hd
      simp only [isDigit, Bool.and_eq_true, decide_eq_true_eq] at hd
      have := ih (acc * 10 + (a.toNat - 48))
      refine Nat.lt_of_lt_of_le this ?_
      rw [Nat.pow_succ, Nat.mul_comm (10 ^ p.length), ← Nat.mul_assoc]
      exact Nat.mul_le_mul_right _ (by omega)
    · refine Nat.lt_of_lt_of_le (Nat.lt_succ_self _) ?_
      exact Nat.le_mul_of_pos_right _ (Nat.pow_pos (by omega))

theorem atoi_piece (p rest : Bytes) (hp : p ≠ []) (hl : p.length ≤ 4) (hd : ∀ x ∈ p, isDigit x = true ∨ x = 35)
    (hr : ∀ b ∈ rest.head?, isDigit b = false) : atoi (p ++ rest) = (digits 0 p : Int) := by
  cases p with
  | nil => exact absurd rfl hp
  | cons a q =>
    have ha := hd a (by simp)
    have hns : isSpace a = false ∧ a ≠ 45 ∧ a ≠ 43 := by
      rcases ha with z | z
      · simp only [isDigit, Bool.and_eq_true, decide_eq_true_eq] at z
        refine ⟨?_, ?_, ?_⟩
        · simp only [isSpace, Bool.or_eq_false_iff, Bool.and_eq_false_iff, decide_eq_false_iff_not, beq_eq_false_iff_ne]
          refine ⟨?_, by omega⟩
          intro q; rw [q] at z; exact absurd z (by decide)
        · intro q; rw [q] at z; exact absurd z (by decide)
        · intro q; rw [q] at z; exact absurd z (by decide)
      · subst z; decide
    have hdw : (a :: q ++ rest).dropWhile isSpace = a :: q ++ rest := by
      rw [List.cons_append, List.dropWhile_cons, hns.1]; simp
    have hlt := digits_lt (a :: q) 0
    have hpow : 10 ^ (a :: q).length ≤ 10 ^ 4 := Nat.pow_le_pow_right (by omega) hl
    have hlt' : digits 0 (a :: q) < 10000 := by omega
    have hda := digits_append (a :: q) 0 rest hr
    unfold atoi atoll
    rw [hdw, List.cons_append]
    dsimp only
    rw [if_neg hns.2.1, if_neg hns.2.2, ← List.cons_append, hda]
    have hc : clamp64 (digits 0 (a :: q) : Int) = (digits 0 (a :: q) : Int) := by
      unfold clamp64; omega
    rw [hc, Int.bmod_def]
    omega

theorem ext_head (c : Config) (e : Bytes) (h : Same (ext c) e) : ∀ b ∈ e.head?, isDigit b = false := by
  have hx : ∀ b, (ext c).head? = some b → b = 46 := by
    intro b hb
    unfold ext dot at hb
    have key : ∀ (s : Bytes) (i : Nat), FileName.lastIdx 46 s = some i → (s.drop i).head? = some 46 := by
      intro s
      induction s with
      | nil => intro i h; simp [FileName.lastIdx] at h
      | cons a s ih =>
        intro i h
        unfold FileName.lastIdx at h
        cases hl : FileName.lastIdx 46 s with
        | some j =>
          rw [hl] at h
          simp only [Option.some.injEq] at h
          rw [← h]
          exact ih j hl
        | none =>
          rw [hl] at h
          dsimp only at h
          split at h
          · rename_i ha
            simp only [Option.some.injEq] at h
            rw [← h, ha]; rfl
          · simp at h
    cases hl : FileName.lastIdx 46 (fileName c) with
    | none => rw [hl] at hb; simp at hb
    | some i =>
      rw [hl] at hb
      dsimp only at hb
      by_cases hi : 0 < i
      · rw [if_pos hi] at hb
        rw [key _ _ hl] at hb
        simpa using hb.symm
      · rw [if_neg hi] at hb
        simp at hb
  intro b hb
  generalize ext c = x at h hx
  cases h with
  | nil => simp at hb
  | cons h1 _ =>
    have ha := hx _ rfl
    simp at hb
    subst hb ha
    rcases h1 with z | z | z
    · rw [← z]; decide
    · have : (46 : UInt8).toNat = 46 := rfl
      omega
    · have : (46 : UInt8).toNat = 46 := rfl
      omega

/-! ### C141 -/

theorem log_unique {base ext name y m d y' m' d' : Bytes} (h : IsLog base ext name y m d) (h' : IsLog base ext name y' m' d') :
    y = y' ∧ m = m' ∧ d = d' := by
  obtain ⟨⟨b, e, h1, h2, _⟩, h3, h4, h5, _⟩ := h
  obtain ⟨⟨b', e', g1, g2, _⟩, g3, g4, g5, _⟩ := h'
  have hb : b.length = b'.length := by rw [← h2.length_eq, g2.length_eq]
  rw [h1] at g1
  have k1 := (List.append_inj g1 hb).2
  simp only [List.cons.injEq, true_and] at k1
  have k2 := List.append_inj k1 (by omega)
  have k3 := k2.2
  simp only [List.cons.injEq, true_and] at k3
  have k4 := List.append_inj k3 (by omega)
  have k5 := k4.2
  simp only [List.cons.injEq, true_and] at k5
  have k6 := List.append_inj k5 (by omega)
  exact ⟨k2.1, k4.1, k6.1⟩

theorem fileDay_eq (c : Config) {name y m d b e : Bytes} {refs : List Ref} (hn : name = b ++ 45 :: (y ++ 45 :: (m ++ 45 :: (d ++ e))))
    (hl : IsLog (base c) (ext c) name y m d) (h0 : (refs[0]?).elim 0 (·.start) = b.length + 1) (h1 : (refs[1]?).elim 0 (·.start) = b.length + 6)
    (h2 : (refs[2]?).elim 0 (·.start) = b.length + 9) (he : Same (ext c) e) :
    fileDay name refs = day (timegm ⟨(digits 0 y : Int) - 1900, (digits 0 m : Int) - 1, (digits 0 d : Int), 0, 0, 0⟩) := by
  obtain ⟨_, ly, lm, ld, hd⟩ := hl
  have hm : ∀ (l : Bytes), ∀ x ∈ (45 :: l).head?, isDigit x = false := by
    intro l x hx
    simp at hx
    subst hx
    decide
  have e0 : name.drop (b.length + 1) = y ++ 45 :: (m ++ 45 :: (d ++ e)) := by
    rw [hn, List.drop_append]
    simp
  have e1 : name.drop (b.length + 6) = m ++ 45 :: (d ++ e) := by
    rw [show b.length + 6 = (b.length + 1) + 5 by omega, ← List.drop_drop, e0, show 5 = y.length + 1 by omega, List.drop_append]
    simp
  have e2 : name.drop (b.length + 9) = d ++ e := by
    rw [show b.length + 9 = (b.length + 6) + 3 by omega, ← List.drop_drop, e1, show 3 = m.length + 1 by omega, List.drop_append]
    simp
  unfold fileDay number
  rw [h0, h1, h2, e0, e1, e2]
  rw [atoi_piece y _ (by intro q; rw [q] at ly; simp at ly) (by omega) (fun x hx => hd x (by simp [hx])) (hm _),
    atoi_piece m _ (by intro q; rw [q] at lm; simp at lm) (by omega) (fun x hx => hd x (by simp [hx])) (hm _),
    atoi_piece d _ (by intro q; rw [q] at ld; simp at ld) (by omega) (fun x hx => hd x (by simp [hx])) (ext_head c e he)]

/-- C141: a file is deleted exactly if it has the name of a log file, without regard to case, and the date in its name is so many days ago. Dates
which do not exist are counted on: the 32nd of a month is the day behind the 31st. -/
theorem old_iff (c : Config) (now : Int) (name : Bytes) (hlen : c.logFile.length ≤ 1000) (hb : Plain (base c)) (he : Plain (ext c)) :
    old c now name = true ↔ ∃ y m d, IsLog (base c) (ext c) name y m d ∧
      day (timegm ⟨(digits 0 y : Int) - 1900, (digits 0 m : Int) - 1, (digits 0 d : Int), 0, 0, 0⟩) ≤ day now - c.keep := by
  obtain ⟨res, refs, hr, hg⟩ := mask_meaning true (mask c) name
  constructor
  · intro h
    unfold old at h
    rw [hr] at h
    cases res with
    | false => simp at h
    | true =>
      obtain ⟨y, m, d, b, e, hn, hl, h0, h1, h2, h3⟩ := match_iff c name refs hlen hb he hr
      refine ⟨y, m, d, hl, ?_⟩
      rw [← fileDay_eq c hn hl h0 h1 h2 h3]
      exact of_decide_eq_true h
  · rintro ⟨y, m, d, hl, hle⟩
    have hglob : Glob (mask c) name := by
      obtain ⟨⟨b, e, h1, h2, h3⟩, ly, lm, ld, hd⟩ := hl
      have dy : ∀ x ∈ y, isDigit x = true ∨ x = 35 := fun x hx => hd x (by simp [hx])
      have dm : ∀ x ∈ m, isDigit x = true ∨ x = 35 := fun x hx => hd x (by simp [hx])
      have dd : ∀ x ∈ d, isDigit x = true ∨ x = 35 := fun x hx => hd x (by simp [hx])
      have hmin : ∀ a u, Glob a u → Glob (45 :: a) (45 :: u) := fun a u h => .char _ _ _ _ (by decide) (.inl rfl) h
      rw [mask_eq c hlen, h1]
      refine glob_of_same _ _ hb h2 _ _ (hmin _ _ ?_)
      have q1 := glob_of_digits y dy
      have q2 := glob_of_digits m dm
      have q3 := glob_of_digits d dd
      rw [ly] at q1
      rw [lm] at q2
      rw [ld] at q3
      refine q1 _ _ (hmin _ _ (q2 _ _ (hmin _ _ (q3 _ _ ?_))))
      have := glob_of_same _ _ he h3 [] [] .nil
      rwa [List.append_nil, List.append_nil] at this
    have hres : res = true := hg.2 hglob
    subst hres
    obtain ⟨y', m', d', b, e, hn, hl', h0, h1, h2, h3⟩ := match_iff c name refs hlen hb he hr
    obtain ⟨r1, r2, r3⟩ := log_unique hl hl'
    subst r1 r2 r3
    unfold old
    rw [hr]
    dsimp only
    rw [fileDay_eq c hn hl' h0 h1 h2 h3]
    exact decide_eq_true hle

theorem day_of {t : Int} (h0 : 0 ≤ t) (h1 : t < 2 ^ 31) : day t = t / 86400 := by
  unfold day
  have : t.bmod (2 ^ 32) = t := by rw [Int.bmod_def]; omega
  rw [this, Int.tdiv_eq_ediv_of_nonneg h0]

theorem civil_range (n : Nat) (h : n ≤ 24855) : 1970 ≤ (civil n).year ∧ (civil n).year ≤ 2038 ∧ 1 ≤ (civil n).month ∧ (civil n).month ≤ 12 ∧
    1 ≤ (civil n).day ∧ (civil n).day ≤ 31 := by
  obtain ⟨hv, hy⟩ := civil_valid n
  obtain ⟨h1, h2, h3, h4⟩ := hv
  have hd : (civil n).day ≤ 31 := by
    refine Int.le_trans h4 ?_
    unfold monthDays
    split <;> (try split) <;> omega
  have ht := timegm_civil n 0 0 0
  rw [timegm_date _ ⟨h1, h2, h3, h4⟩] at ht
  have hj : 0 ≤ daysFrom1Jan (civil n).year (civil n).month (civil n).day := by
    unfold daysFrom1Jan
    have : ∀ (b : Bool) (i : Nat), 0 ≤ (daysTable b).getD i 0 := by
      intro b i
      have hall : ∀ b : Bool, ∀ x ∈ daysTable b, 0 ≤ x := by decide
      rw [List.getD_eq_getElem?_getD]
      cases hi : (daysTable b)[i]? with
      | none => simp
      | some x => exact hall b x (List.mem_of_getElem? hi)
    have := this (isLeap (civil n).year) ((civil n).month - 1).toNat
    omega
  refine ⟨hy, ?_, h1, h2, h3, hd⟩
  unfold daysFrom1970 daysFrom0 at ht
  dsimp only at ht
  rw [Int.tdiv_eq_ediv_of_nonneg (by omega), Int.tdiv_eq_ediv_of_nonneg (by omega), Int.tdiv_eq_ediv_of_nonneg (by omega)] at ht
  omega

theorem dec_year : ∀ k < 69, (dec (1970 + k)).length = 4 := by decide +kernel

theorem two_len : ∀ k < 32, (two k).length = 2 ∧ ((two k).all isDigit = true) ∧ digits 0 (two k) = k := by decide +kernel

/-- The name of the file of a day is the name of a log file. -/
theorem dated_log (c : Config) (n : Nat) (h : n ≤ 24855) : IsLog (base c) (ext c) (dated c n) (dec (civil n).year.toNat) (two (civil n).month.toNat)
    (two (civil n).day.toNat) := by
  obtain ⟨y1, y2, m1, m2, d1, d2⟩ := civil_range n h
  have hy := dec_year ((civil n).year.toNat - 1970) (by omega)
  rw [show 1970 + ((civil n).year.toNat - 1970) = (civil n).year.toNat by omega] at hy
  have hm := two_len (civil n).month.toNat (by omega)
  have hd := two_len (civil n).day.toNat (by omega)
  refine ⟨⟨base c, ext c, rfl, .refl _, .refl _⟩, hy, hm.1, hd.1, ?_⟩
  intro x hx
  left
  rcases List.mem_append.1 hx with hx | hx
  · rcases List.mem_append.1 hx with hx | hx
    · exact isDigit_dec _ x hx
    · exact List.all_eq_true.1 hm.2.1 x hx
  · exact List.all_eq_true.1 hd.2.1 x hx

/-- C141: of the files written by the program exactly those are deleted whose day is at least `RotateLog` days before today: the files of the last
`RotateLog` days, with today, remain. For times before 19 January 2038. -/
theorem deleted_by_day_partial (c : Config) (now n : Nat) (hlen : c.logFile.length ≤ 1000) (hb : Plain (base c)) (he : Plain (ext c))
    (hn : n ≤ 24855) (hnow : now < 2 ^ 31) : old c now (dated c n) = true ↔ (n : Int) ≤ now / 86400 - c.keep := by
  have hl := dated_log c n hn
  obtain ⟨y1, y2, m1, m2, d1, d2⟩ := civil_range n hn
  have hdy : digits 0 (dec (civil n).year.toNat) = (civil n).year.toNat := by
    have := digits_dec (civil n).year.toNat [] (by simp)
    rwa [List.append_nil] at this
  have hdm := (two_len (civil n).month.toNat (by omega)).2.2
  have hdd := (two_len (civil n).day.toNat (by omega)).2.2
  have hday : day (timegm ⟨(digits 0 (dec (civil n).year.toNat) : Int) - 1900, (digits 0 (two (civil n).month.toNat) : Int) - 1,
      (digits 0 (two (civil n).day.toNat) : Int), 0, 0, 0⟩) = n := by
    rw [hdy, hdm, hdd, Int.toNat_of_nonneg (by omega), Int.toNat_of_nonneg (by omega), Int.toNat_of_nonneg (by omega)]
    have := timegm_civil n 0 0 0
    unfold Date.tm at this
    rw [this, day_of (by omega) (by omega)]
    omega
  have hnd : day (now : Int) = (now : Int) / 86400 := day_of (by omega) (by omega)
  rw [old_iff c now _ hlen hb he]
  constructor
  · rintro ⟨y, m, d, hl', hle⟩
    obtain ⟨r1, r2, r3⟩ := log_unique hl hl'
    rw [← r1, ← r2, ← r3, hday, hnd] at hle
    exact hle
  · intro h
    exact ⟨_, _, _, hl, by rw [hday, hnd]; exact h⟩

/-- C141: the file of today is kept. -/
theorem today_kept_partial (c : Config) (now : Nat) (hlen : c.logFile.length ≤ 1000) (hb : Plain (base c)) (he : Plain (ext c)) (hk : 1 ≤ c.keep)
    (hnow : now < 2 ^ 31) : old c now (dated c (now / 86400)) = false := by
  cases h : old c now (dated c (now / 86400)) with
  | false => rfl
  | true =>
    have := (deleted_by_day_partial c now (now / 86400) hlen hb he (by omega) hnow).1 h
    omega

/-- C141: rotating deletes only such files; everything else in the directory remains, in the same order. -/
theorem rotation (c : Config) (now : Nat) (files : List Bytes) (hlen : c.logFile.length ≤ 1000) (hb : Plain (base c)) (he : Plain (ext c)) :
    (rotate c now files).1.Sublist files ∧ ∀ f ∈ files, f ∈ (rotate c now files).1 ∨ ∃ y m d, IsLog (base c) (ext c) f y m d := by
  refine ⟨List.filter_sublist, ?_⟩
  intro f hf
  cases ho : old c now f with
  | false => left; exact List.mem_filter.2 ⟨hf, by simp [ho]⟩
  | true =>
    right
    obtain ⟨y, m, d, h, _⟩ := (old_iff c now f hlen hb he).1 ho
    exact ⟨y, m, d, h⟩

/-- The clock does not go back. -/
def Ordered : Nat → List (Nat × Nat) → Prop
  | _, [] => True
  | t0, (t, t') :: l => t0 ≤ t ∧ t ≤ t' ∧ t' < 2147483648 ∧ Ordered t' l

/-- The path of the file of a day. -/
def path (c : Config) (n : Nat) : Bytes := (directory c ++ 47 :: dated c n).take 1023

theorem day_nat (t : Nat) (ht : t < 2147483648) : day (t : Int) = (t : Int) / 86400 := day_of (by omega) (by omega)

theorem write_last (c : Config) (t t' : Nat) (s : Log) : (write c t t' s).last = t := by
  unfold write
  split <;> dsimp only

theorem write_file (c : Config) (t t' t0 : Nat) (s : Log) (hs : s.last < 2147483648) (ht : t < 2147483648) (h1 : t0 ≤ t) (h2 : t ≤ t')
    (hi : (∃ k, s.file = path c k ∧ s.last / 86400 ≤ k ∧ k ≤ t0 / 86400) ∨ (s.last / 86400 = 0 ∧ 86400 ≤ t0)) :
    ∃ k, (write c t t' s).file = path c k ∧ t / 86400 ≤ k ∧ k ≤ t' / 86400 := by
  unfold write
  by_cases hd : day (t : Int) ≠ day (s.last : Int)
  · rw [if_pos hd]
    refine ⟨t' / 86400, ?_, by omega, by omega⟩
    unfold rotate path
    dsimp only
  · rw [if_neg hd]
    rw [day_nat t ht, day_nat s.last hs] at hd
    rcases hi with ⟨k, k1, k2, k3⟩ | ⟨k1, k2⟩
    · exact ⟨k, k1, by omega, by omega⟩
    · omega

/-- C141: every message is written into the file of its day; at midnight, if the day ends between two readings of the clock, into the file of
the day which begins. The option is set before the first message, and it is not 1 January 1970. For times before 19 January 2038. -/
theorem file_of_the_day_partial (c : Config) (t0 : Nat) (l : List (Nat × Nat)) (h0 : 86400 ≤ t0) (h : Ordered t0 l) :
    ∀ t t' f, ((t, t'), f) ∈ l.zip (run c (start c) l) → ∃ k, f = path c k ∧ t / 86400 ≤ k ∧ k ≤ t' / 86400 := by
  have key : ∀ (l : List (Nat × Nat)) (s : Log) (t0 : Nat), s.last < 2147483648 →
      ((∃ k, s.file = path c k ∧ s.last / 86400 ≤ k ∧ k ≤ t0 / 86400) ∨ (s.last / 86400 = 0 ∧ 86400 ≤ t0)) → Ordered t0 l →
      ∀ t t' f, ((t, t'), f) ∈ l.zip (run c s l) → ∃ k, f = path c k ∧ t / 86400 ≤ k ∧ k ≤ t' / 86400 := by
    intro l
    induction l with
    | nil => intro s t0 _ _ _ a b f hp; simp [run] at hp
    | cons x l ih =>
      intro s t0 hs hi ho a b f hp
      obtain ⟨t, t'⟩ := x
      rw [Ordered] at ho
      obtain ⟨o1, o2, o3, o4⟩ := ho
      have hw := write_file c t t' t0 s hs (by omega) o1 o2 hi
      have hlast := write_last c t t' s
      rw [run, List.zip_cons_cons] at hp
      rcases List.mem_cons.1 hp with q | hp
      · simp only [Prod.mk.injEq] at q
        rw [q.2, q.1.1, q.1.2]
        exact hw
      · refine ih (write c t t' s) t' (by rw [hlast]; omega) ?_ o4 a b f hp
        obtain ⟨k, k1, k2, k3⟩ := hw
        exact .inl ⟨k, k1, by rw [hlast]; exact k2, k3⟩
  have fin : ∀ s : Log, s.last = 0 → ∀ t t' f, ((t, t'), f) ∈ l.zip (run c s l) → ∃ k, f = path c k ∧ t / 86400 ≤ k ∧ k ≤ t' / 86400 := by
    intro s hs
    exact key l s t0 (by omega) (.inr ⟨by omega, h0⟩) h
  exact fin (start c) rfl

/-! ### Refutations -/

def demo : Config := ⟨lit "/var/log/nzbget.log", 10⟩

/-- A file with a date behind 19 January 2038 is deleted at once: the time is cut to 32 bits. -/
theorem future_deleted : old demo 1480000000 (lit "nzbget-2038-01-21.log") = true := by decide +kernel

/-- From then on the files of the years before are kept for ever. -/
theorem past_kept : old demo 2208988800 (lit "nzbget-2037-12-01.log") = false := by decide +kernel

/-- With a `#` or a `?` in the name of the log file the file which is being written to is deleted: the numbers are read in wrong places. -/
theorem wild_name : old ⟨lit "/var/log/nzb#get.log", 10⟩ 1479384000 (lit "nzb#get-2016-11-17.log") = true ∧ (1479384000 / 86400 : Nat) = 17122 ∧
    dated ⟨lit "/var/log/nzb#get.log", 10⟩ 0 = lit "nzb#get-1970-01-01.log" := by decide +kernel

/-- A log file without a directory is written into a directory with its own name. -/
theorem no_directory (c : Config) (hlen : c.logFile.length ≤ 1000) (h : ∀ x ∈ c.logFile, x ≠ 47 ∧ x ≠ 92) (n : Nat)
    (hl : (base c ++ 47 :: dated c n).length ≤ 1023) : path c n = base c ++ 47 :: dated c n := by
  have htw : ∀ l : Bytes, (∀ x ∈ l, x ≠ 47 ∧ x ≠ 92) → l.takeWhile (fun c => !(c == 47 || c == 92)) = l := by
    intro l
    induction l with
    | nil => intro _; rfl
    | cons a l ih =>
      intro hl
      have ha := hl a (by simp)
      rw [List.takeWhile_cons, ih (fun x hx => hl x (by simp [hx]))]
      simp [ha.1, ha.2]
  have hf : fileName c = c.logFile := by
    unfold fileName FileName.baseName
    rw [List.take_of_length_le (by omega), htw _ (fun x hx => h x (by simpa using hx)), List.reverse_reverse]
  have hd : directory c = base c := by
    unfold directory
    rw [hf, List.take_of_length_le (by omega), if_neg (by omega)]
  unfold path
  rw [hd, List.take_of_length_le hl]

/-! ### Examples -/

example : directory demo = lit "/var/log" ∧ base demo = lit "nzbget" ∧ ext demo = lit ".log" ∧ (∀ p ∈ base demo, p ≠ 42 ∧ ¬ IsWild p) := by
  decide +kernel
example : dated demo 400 = lit "nzbget-1971-02-05.log" := by decide +kernel
-- ten days: today and the nine before
example : old demo 1479384000 (lit "nzbget-2016-11-07.log") = true ∧ old demo 1479384000 (lit "nzbget-2016-11-08.log") = false ∧
    old demo 1479384000 (lit "NZBGET-1999-01-01.log") = true ∧ old demo 1479384000 (lit "nzbget-2016-11-7.log") = false ∧
    old demo 1479384000 (lit "nzbget.log") = false := by decide +kernel
example : Ordered 86400 [(86400, 86400), (172799, 172800), (172801, 172801)] ∧
    run demo (start demo) [(86400, 86400), (172799, 172799), (172801, 172801)] =
      [lit "/var/log/nzbget-1970-01-02.log", lit "/var/log/nzbget-1970-01-02.log", lit "/var/log/nzbget-1970-01-03.log"] := by
  refine ⟨by simp [Ordered], by decide +kernel⟩
example : path ⟨lit "nzbget.log", 10⟩ 0 = lit "nzbget/nzbget-1970-01-01.log" := by decide +kernel

end Verif.LogRotate
