import Verif.WildMaskProps
/-
C57: the pieces of a text which the wildcards of a mask stand for, as they are recorded for `${1}`,
`${2}`, ... in the options of feed filters (FeedFilter.cpp:499-510, 885-937).
-/
namespace Verif.WildMask
open CStr

/-- A `?` or a `#`. -/
def IsWild (p : UInt8) : Prop := p = 63 ∨ p = 35

instance (p : UInt8) : Decidable (IsWild p) := by unfold IsWild; infer_instance

/-- Specification: `Refs pos mask text refs` - the text (which begins at position `pos`) can be split
according to the mask so that every run of stars stands for the piece recorded for it, every run of
`?` and `#` for the piece recorded for it, and the other characters for themselves. -/
inductive Refs : Nat → Bytes → Bytes → List Ref → Prop
  | nil (pos) : Refs pos [] [] []
  | char (pos a c m u g) : a ≠ 42 → ¬ IsWild a → SameLetter a c → Refs (pos + 1) m u g →
      Refs pos (a :: m) (c :: u) g
  | star (pos m t u g) : m.head? ≠ some 42 → Refs (pos + t.length) m u g →
      Refs pos (42 :: m) (t ++ u) (⟨pos, t.length⟩ :: g)
  | stars (pos m t g) : Refs pos (42 :: m) t g → Refs pos (42 :: 42 :: m) t g
  | wild (pos q m t u g) : q ≠ [] → (∀ p ∈ q, IsWild p) → (∀ p, m.head? = some p → ¬ IsWild p) →
      Glob q t → Refs (pos + t.length) m u g → Refs pos (q ++ m) (t ++ u) (⟨pos, t.length⟩ :: g)

/-- The text a reference is replaced with: `CString(strValue + start, len)` (FeedFilter.cpp:506,
NString.cpp:108-119), where a length of 0 means "up to the end". A negative length makes strncpy write
outside of the buffer: `none`. -/
def refText (text : Bytes) (r : Ref) : Option Bytes :=
  if r.len < 0 then none
  else if r.len = 0 then some (text.drop r.start)
  else some ((text.drop r.start).take r.len.toNat)

/-! ### Masks without stars -/

theorem skipStars_id {m : Bytes} (h : 42 ∉ m) : skipStars m = m := by
  cases m with
  | nil => rfl
  | cons p m =>
    unfold skipStars
    rw [if_neg]
    intro e
    exact h (by rw [e]; exact List.mem_cons_self ..)

/-- The end of the first loop for a mask without stars. -/
theorem prefix_refs : ∀ (text mask : Bytes) (pos : Nat) (refs : List Ref) (qm : Bool) (s : S),
    42 ∉ mask → prefixLoop true mask text pos refs qm = some s →
    s.str = [] ∧ s.qmark = false ∧ s.star = false ∧ 42 ∉ s.pat ∧
    (s.pat = [] →
      (qm = false → ∃ g, s.refs = g.reverse ++ refs ∧ Refs pos mask text g) ∧
      (∀ st l rs, qm = true → refs = ⟨st, l⟩ :: rs → ∃ q m t u g, mask = q ++ m ∧ text = t ++ u ∧
        (∀ p ∈ q, IsWild p) ∧ (∀ p, m.head? = some p → ¬ IsWild p) ∧ Glob q t ∧
        s.refs = g.reverse ++ ⟨st, ((pos + t.length : Nat) : Int) - st⟩ :: rs ∧
        Refs (pos + t.length) m u g)) := by
  intro text
  induction text with
  | nil =>
    intro mask pos refs qm s h42 h
    unfold prefixLoop at h
    simp only [Option.some.injEq] at h
    subst h
    refine ⟨rfl, ?_, rfl, h42, ?_⟩
    · cases qm <;> rfl
    · intro hp
      dsimp only at hp
      subst hp
      constructor
      · intro hq; subst hq; exact ⟨[], rfl, .nil _⟩
      · intro st l rs hq hr
        subst hq hr
        exact ⟨[], [], [], [], [], rfl, rfl, (fun _ h => absurd h List.not_mem_nil),
          (fun _ h => nomatch h), .nil, rfl, .nil _⟩
  | cons c text ih =>
    intro mask pos refs qm s h42 h
    cases mask with
    | nil => unfold prefixLoop at h; cases h
    | cons p mask =>
      have hp42 : p ≠ 42 := fun e => h42 (by rw [e]; exact List.mem_cons_self ..)
      have h42' : 42 ∉ mask := fun e => h42 (List.mem_cons_of_mem _ e)
      unfold prefixLoop at h
      rw [if_neg hp42] at h
      dsimp only at h
      by_cases ha : accepts p c = true
      · rw [if_pos ha] at h
        by_cases hw : IsWild p
        · have hw' : (true && (p == 63 || p == 35)) = true := by
            unfold IsWild at hw
            simp only [Bool.true_and, Bool.or_eq_true, beq_iff_eq]; exact hw
          rw [if_pos hw', if_pos hw'] at h
          have hgl : ∀ q t, Glob q t → Glob (p :: q) (c :: t) :=
            fun q t hg => (accepts_iff p c q t hp42).2 ⟨ha, hg⟩
          cases qm with
          | false =>
            simp only [Bool.false_eq_true, if_false] at h
            obtain ⟨h1, h2, h3, h4, h5⟩ := ih mask (pos + 1) (push pos refs) true s h42' h
            refine ⟨h1, h2, h3, h4, fun hp => ⟨fun _ => ?_, fun _ _ _ hq => nomatch hq⟩⟩
            obtain ⟨q, m, t, u, g, e1, e2, h6, h7, h8, h9, h10⟩ := (h5 hp).2 pos 0 refs rfl rfl
            refine ⟨⟨pos, ((c :: t).length : Nat)⟩ :: g, ?_, ?_⟩
            · rw [h9, List.reverse_cons, List.append_assoc]
              have : (((pos + 1 + t.length : Nat) : Int) - pos) = ((c :: t).length : Nat) := by
                rw [List.length_cons]; omega
              rw [this]; rfl
            · have e : pos + (c :: t).length = pos + 1 + t.length := by rw [List.length_cons]; omega
              have := Refs.wild pos (p :: q) m (c :: t) u g (List.cons_ne_nil _ _)
                (by intro x hx; rcases List.mem_cons.1 hx with hx | hx
                    · rw [hx]; exact hw
                    · exact h6 x hx) h7 (hgl _ _ h8) (by rw [e]; exact h10)
              rw [e1, e2]
              exact this
          | true =>
            simp only [if_true] at h
            obtain ⟨h1, h2, h3, h4, h5⟩ := ih mask (pos + 1) refs true s h42' h
            refine ⟨h1, h2, h3, h4, fun hp => ⟨(fun hq => nomatch hq), fun st l rs _ hr => ?_⟩⟩
            obtain ⟨q, m, t, u, g, e1, e2, h6, h7, h8, h9, h10⟩ := (h5 hp).2 st l rs rfl hr
            have e : pos + (c :: t).length = pos + 1 + t.length := by rw [List.length_cons]; omega
            refine ⟨p :: q, m, c :: t, u, g, by rw [e1]; rfl, by rw [e2]; rfl, ?_, h7, hgl _ _ h8, ?_, ?_⟩
            · intro x hx; rcases List.mem_cons.1 hx with hx | hx
              · rw [hx]; exact hw
              · exact h6 x hx
            · rw [e]; exact h9
            · rw [e]; exact h10
        · have hw' : ¬ ((true && (p == 63 || p == 35)) = true) := by
            unfold IsWild at hw
            simp only [Bool.true_and, Bool.or_eq_true, beq_iff_eq]; exact hw
          rw [if_neg hw', if_neg hw'] at h
          have hlet : SameLetter p c := by
            rcases glob_cons_inv ((accepts_iff p c [] [] hp42).2 ⟨ha, .nil⟩) with ⟨hh, _⟩ | ⟨c', u', e, _, hh⟩
            · exact absurd hh hp42
            · simp only [List.cons.injEq] at e
              rw [e.1]
              rcases hh with hh | hh | hh
              · exact absurd (Or.inl hh) hw
              · exact absurd (Or.inr hh.1) hw
              · exact hh.2
          cases qm with
          | false =>
            simp only [Bool.and_false, Bool.false_eq_true, if_false] at h
            obtain ⟨h1, h2, h3, h4, h5⟩ := ih mask (pos + 1) refs false s h42' h
            refine ⟨h1, h2, h3, h4, fun hp => ⟨fun _ => ?_, fun _ _ _ hq => nomatch hq⟩⟩
            obtain ⟨g, h6, h7⟩ := (h5 hp).1 rfl
            exact ⟨g, h6, .char _ _ _ _ _ _ hp42 hw hlet h7⟩
          | true =>
            simp only [Bool.and_true, if_true] at h
            obtain ⟨h1, h2, h3, h4, h5⟩ := ih mask (pos + 1) (close pos refs) false s h42' h
            refine ⟨h1, h2, h3, h4, fun hp => ⟨(fun hq => nomatch hq), fun st l rs _ hr => ?_⟩⟩
            obtain ⟨g, h6, h7⟩ := (h5 hp).1 rfl
            refine ⟨[], p :: mask, [], c :: text, g, rfl, rfl, (fun _ h => absurd h List.not_mem_nil), ?_,
              .nil, ?_, .char _ _ _ _ _ _ hp42 hw hlet h7⟩
            · intro x hx
              simp only [List.head?_cons, Option.some.injEq] at hx
              rw [← hx]; exact hw
            · rw [h6, hr]; rfl
      · rw [if_neg ha] at h; cases h

/-- **C57, masks without a star.** When a mask without `*` matches, the pieces recorded are those
which the runs of `?` and `#` stand for. -/
theorem refs_without_star_partial (mask text : Bytes) (refs : List Ref) (h42 : 42 ∉ mask)
    (h : run true mask text = some (true, refs)) : Refs 0 mask text refs := by
  unfold run at h
  cases hp : prefixLoop true mask text 0 [] false with
  | none => rw [hp] at h; simp only [Option.some.injEq, Prod.mk.injEq, Bool.false_eq_true, false_and] at h
  | some s =>
    rw [hp] at h
    obtain ⟨h1, h2, h3, h4, h5⟩ := prefix_refs text mask 0 [] false s h42 hp
    have e : loop true (passes mask text) s = some ((skipStars s.pat).isEmpty, s.refs) := by
      have hh : s.pat.head? ≠ some 42 := by
        intro hh
        cases hs : s.pat with
        | nil => rw [hs] at hh; cases hh
        | cons a l =>
          rw [hs] at hh h4
          simp only [List.head?_cons, Option.some.injEq] at hh
          exact h4 (by rw [hh]; exact List.mem_cons_self ..)
      unfold passes loop pass
      rw [h1]
      unfold finish
      dsimp only
      rw [h2, if_neg (by intro hc; exact hh hc.1)]
      rfl
    dsimp only at h
    rw [e] at h
    simp only [Option.map_some, Option.some.injEq, Prod.mk.injEq, List.isEmpty_iff] at h
    rw [skipStars_id h4] at h
    obtain ⟨g, h6, h7⟩ := (h5 h.1).1 rfl
    rw [← h.2, h6, List.append_nil, List.reverse_reverse]
    exact h7

example : run true (lit "S##E##x") (lit "s01e15X") = some (true, [⟨1, 2⟩, ⟨4, 2⟩]) := by decide +kernel

/-! ### Masks without `?` and `#` -/

/-- The invariant of the second loop: the last recorded position belongs to the star last seen. -/
structure RInv (mask text : Bytes) (s : S) (s0 : Nat) (len : Int) (gs : List Ref) : Prop where
  qm : s.qmark = false
  str : s.str = text.drop s.pos
  pos : s.pos ≤ text.length
  spos : s.spos = text.drop s.sidx
  refs : s.refs = ⟨s0, len⟩ :: gs
  wild : ∀ p ∈ s.wpos, ¬ IsWild p
  wne : s.wpos ≠ []
  cont : ∀ g, Refs s0 (42 :: s.wpos) (text.drop s0) g → Refs 0 mask text (gs.reverse ++ g)
  fresh : s.star = true → s.pat = s.wpos ∧ s0 ≤ s.pos ∧ s.sidx = s.pos + 1 ∧
    (s.wpos.head? ≠ some 42 ∨ (s0 = s.pos ∧ s.str ≠ []))
  going : s.star = false → ∃ (p : Nat) (q : Bytes), s.wpos = q ++ s.pat ∧ q ≠ [] ∧ q.head? ≠ some 42 ∧
    s0 ≤ p ∧ s.pos = p + q.length ∧ s.sidx = p + 1 ∧ len = (p : Int) - s0 ∧
    (∀ g, Refs s.pos s.pat (text.drop s.pos) g → Refs p s.wpos (text.drop p) g)

theorem skipStars_refs (pos : Nat) : ∀ m : Bytes, skipStars m = [] →
    Refs pos m [] (if m.head? = some 42 then [⟨pos, 0⟩] else []) := by
  intro m
  induction m with
  | nil => intro _; exact .nil _
  | cons p m ih =>
    intro h
    unfold skipStars at h
    by_cases hp : p = 42
    · subst hp
      rw [if_pos rfl] at h
      rw [if_pos (by rfl)]
      have := ih h
      cases m with
      | nil => exact .star pos [] [] [] [] (by intro hc; cases hc) (.nil _)
      | cons b m =>
        have hb : b = 42 := by
          unfold skipStars at h
          by_cases hb : b = 42
          · exact hb
          · rw [if_neg hb] at h; cases h
        subst hb
        rw [if_pos (by rfl)] at this
        exact .stars _ _ _ _ this
    · rw [if_neg hp] at h; cases h

/-- Splitting the text at two positions. -/
theorem drop_split {text : Bytes} {a b : Nat} (h : a ≤ b) (hb : b ≤ text.length) :
    ∃ t, text.drop a = t ++ text.drop b ∧ t.length = b - a := by
  refine ⟨(text.drop a).take (b - a), ?_, ?_⟩
  · have : text.drop b = (text.drop a).drop (b - a) := by
      rw [List.drop_drop]; congr 1; omega
    rw [this, List.take_append_drop]
  · rw [List.length_take, List.length_drop]; omega

/-- A star in front of a mask which matches from a later position. -/
theorem refs_star {text m : Bytes} {a b : Nat} {g : List Ref} (h : a ≤ b) (hb : b ≤ text.length)
    (hm : m.head? ≠ some 42) (hr : Refs b m (text.drop b) g) :
    Refs a (42 :: m) (text.drop a) (⟨a, (b : Int) - a⟩ :: g) := by
  obtain ⟨t, e, hl⟩ := drop_split h hb
  have e2 : a + t.length = b := by omega
  have e3 : ((b : Int) - a) = (t.length : Nat) := by omega
  rw [e, e3]
  exact .star a m t _ g hm (by rw [e2]; exact hr)

/-- What a pass has to keep, for the recorded positions. -/
def RPassOk (mask text : Bytes) : Pass → Prop
  | .stop res refs => res = true → Refs 0 mask text refs.reverse
  | .next s' => ∃ s0 len gs, RInv mask text s' s0 len gs

theorem head_append {q m : Bytes} (h : q ≠ []) : (q ++ m).head? = q.head? := by
  cases q with
  | nil => exact absurd rfl h
  | cons a q => rfl

theorem rinv_backtrack {mask text : Bytes} {s : S} {s0 : Nat} {len : Int} {gs : List Ref}
    (h : RInv mask text s s0 len gs) (hs : s.str ≠ []) (hn : s.pat.head? ≠ some 42) :
    RInv mask text (backtrack true s) s0 len gs := by
  have hpos : s.pos < text.length := by
    have := List.length_pos_iff.2 hs
    rw [h.str, List.length_drop] at this
    omega
  have hh : s.wpos.head? ≠ some 42 ∧ s0 < s.sidx ∧ s.sidx ≤ text.length := by
    cases hst : s.star with
    | true =>
      obtain ⟨h1, h2, h3, h4⟩ := h.fresh hst
      rw [← h1]; exact ⟨hn, by omega, by omega⟩
    | false =>
      obtain ⟨p, q, h1, h2, h3, h4, h5, h6, _⟩ := h.going hst
      have := List.length_pos_iff.2 h2
      rw [h1, head_append h2]; exact ⟨h3, by omega, by omega⟩
  constructor
  · show (if (true && s.qmark) = true then false else s.qmark) = false
    rw [h.qm]; rfl
  · exact h.spos
  · exact hh.2.2
  · show s.spos.tail = text.drop (s.sidx + 1)
    rw [h.spos, List.tail_drop]
  · show (if (true && s.qmark) = true then s.refs.tail else s.refs) = _
    rw [h.qm]; exact h.refs
  · exact h.wild
  · exact h.wne
  · exact h.cont
  · intro _
    refine ⟨rfl, ?_, rfl, Or.inl hh.1⟩
    show s0 ≤ s.sidx
    omega
  · intro hc; cases hc

/-- The piece of the star last seen is known, once something after it was matched. -/
theorem rinv_close {mask text : Bytes} {s : S} {s0 : Nat} {len : Int} {gs g : List Ref}
    (h : RInv mask text s s0 len gs) (hst : s.star = false)
    (hr : Refs s.pos s.pat (text.drop s.pos) g) :
    Refs 0 mask text ((⟨s0, len⟩ :: gs).reverse ++ g) := by
  obtain ⟨p, q, h1, h2, h3, h4, h5, h6, h7, h8⟩ := h.going hst
  have := h.pos
  rw [List.reverse_cons, List.append_assoc]
  refine h.cont _ ?_
  rw [h7]
  exact refs_star h4 (by omega) (by rw [h1, head_append h2]; exact h3) (h8 g hr)

theorem rpass (mask text : Bytes) (s : S) (s0 : Nat) (len : Int) (gs : List Ref)
    (h : RInv mask text s s0 len gs) : RPassOk mask text (pass true s) := by
  have hpatw : ∀ p ∈ s.pat, ¬ IsWild p := by
    intro p hp
    cases hst : s.star with
    | true => exact h.wild p (by rw [← (h.fresh hst).1]; exact hp)
    | false =>
      obtain ⟨_, q, h1, _⟩ := h.going hst
      exact h.wild p (by rw [h1]; exact List.mem_append_right _ hp)
  unfold pass
  split
  next pat hs =>
    unfold finish
    dsimp only
    intro hres
    rw [List.isEmpty_iff] at hres
    have hsk := skipStars_refs s.pos s.pat hres
    have hd : text.drop s.pos = [] := by rw [← h.str]; exact hs
    cases hst : s.star with
    | true =>
      obtain ⟨h1, h2, h3, h4⟩ := h.fresh hst
      rcases h4 with h4 | ⟨_, h4⟩
      · rw [← h1] at h4
        have hne := h.wne
        rw [← h1] at hne
        cases hp : s.pat with
        | nil => exact absurd hp hne
        | cons a l =>
          rw [hp] at hres h4
          unfold skipStars at hres
          rw [if_neg (by intro e; exact h4 (by rw [e]; rfl))] at hres
          cases hres
      · exact absurd hs h4
    | false =>
      have hc := rinv_close h hst (by rw [hd]; exact hsk)
      simp only [h.qm, Bool.and_false, Bool.false_eq_true, if_false, and_true]
      rw [h.refs]
      by_cases hh : s.pat.head? = some 42
      · rw [if_pos hh] at hc ⊢
        show Refs 0 mask text (⟨s.pos, 0⟩ :: ⟨s0, len⟩ :: gs).reverse
        rw [List.reverse_cons]
        exact hc
      · rw [if_neg hh] at hc ⊢
        rw [List.append_nil] at hc
        exact hc
  next c str' p pat' hs hp =>
    by_cases h42 : p = 42
    · rw [if_pos h42]
      subst h42
      unfold onStar
      simp only [h.qm, Bool.and_false, Bool.false_eq_true, if_false, Bool.true_and]
      have hlen : (text.drop s.pos).length = s.str.length := by rw [h.str]
      cases hst : s.star with
      | true =>
        obtain ⟨h1, h2, h3, h4⟩ := h.fresh hst
        have hw : s.wpos = 42 :: pat' := by rw [← h1, hp]
        have h5 : s0 = s.pos := by
          rcases h4 with h4 | h4
          · rw [hw] at h4; exact absurd rfl h4
          · exact h4.1
        have hcont : ∀ g, Refs s0 (42 :: pat') (text.drop s0) g → Refs 0 mask text (gs.reverse ++ g) := by
          intro g hg
          exact h.cont g (by rw [hw]; exact .stars _ _ _ _ hg)
        simp only [Bool.not_true, Bool.false_eq_true, if_false, if_true]
        by_cases hn : pat' = []
        · rw [if_pos hn]
          intro _
          rw [h.refs]
          show Refs 0 mask text (⟨s0, (s.str.length : Nat)⟩ :: gs).reverse
          rw [List.reverse_cons]
          refine hcont _ ?_
          rw [hn, h5, ← hlen]
          have := Refs.star s.pos [] (text.drop s.pos) [] [] (by intro hc; cases hc) (.nil _)
          rw [List.append_nil] at this
          exact this
        · rw [if_neg hn]
          refine ⟨s0, len, gs, ?_⟩
          constructor
          · rfl
          · exact h.str
          · exact h.pos
          · show s.str.tail = text.drop (s.pos + 1)
            rw [h.str, List.tail_drop]
          · exact h.refs
          · intro x hx
            exact h.wild x (by rw [hw]; exact List.mem_cons_of_mem _ hx)
          · exact hn
          · exact hcont
          · intro _
            exact ⟨rfl, h2, rfl, Or.inr ⟨h5, by rw [hs]; exact List.cons_ne_nil _ _⟩⟩
          · intro hc; cases hc
      | false =>
        have hcont : ∀ g, Refs s.pos (42 :: pat') (text.drop s.pos) g →
            Refs 0 mask text ((⟨s0, len⟩ :: gs).reverse ++ g) := by
          intro g hg
          exact rinv_close h hst (by rw [hp]; exact hg)
        simp only [Bool.not_false, if_true]
        by_cases hn : pat' = []
        · rw [if_pos hn]
          intro _
          rw [h.refs]
          show Refs 0 mask text (⟨s.pos, (s.str.length : Nat)⟩ :: ⟨s0, len⟩ :: gs).reverse
          rw [List.reverse_cons]
          refine hcont _ ?_
          rw [hn, ← hlen]
          have := Refs.star s.pos [] (text.drop s.pos) [] [] (by intro hc; cases hc) (.nil _)
          rw [List.append_nil] at this
          exact this
        · rw [if_neg hn]
          refine ⟨s.pos, 0, ⟨s0, len⟩ :: gs, ?_⟩
          constructor
          · rfl
          · exact h.str
          · exact h.pos
          · show s.str.tail = text.drop (s.pos + 1)
            rw [h.str, List.tail_drop]
          · show push s.pos s.refs = _
            rw [h.refs]; rfl
          · intro x hx
            exact hpatw x (by rw [hp]; exact List.mem_cons_of_mem _ hx)
          · exact hn
          · exact hcont
          · intro _
            exact ⟨rfl, Nat.le_refl _, rfl, Or.inr ⟨rfl, by rw [hs]; exact List.cons_ne_nil _ _⟩⟩
          · intro hc; cases hc
    · rw [if_neg h42]
      have hpw : ¬ IsWild p := hpatw p (by rw [hp]; exact List.mem_cons_self ..)
      have hq : ¬ ((p == 63 || p == 35 && isDigit c) = true) := by
        unfold IsWild at hpw
        simp only [Bool.or_eq_true, Bool.and_eq_true, beq_iff_eq]
        rintro (e | ⟨e, _⟩)
        · exact hpw (Or.inl e)
        · exact hpw (Or.inr e)
      rw [if_neg hq]
      have hhead : s.pat.head? ≠ some 42 := by
        rw [hp]
        intro e
        simp only [List.head?_cons, Option.some.injEq] at e
        exact h42 e
      have hstr : s.str ≠ [] := by rw [hs]; exact List.cons_ne_nil _ _
      by_cases hlo : (lower p == lower c) = true
      · rw [if_pos hlo]
        have hlet : SameLetter p c := (lower_eq p c).1 (by simpa using hlo)
        have hd : text.drop s.pos = c :: text.drop (s.pos + 1) := by
          have e1 := h.str
          rw [hs] at e1
          rw [← e1, ← List.tail_drop, ← e1]; rfl
        have hd' : str' = text.drop (s.pos + 1) := by
          have e1 := h.str
          rw [hs] at e1
          rw [← List.tail_drop, ← e1]; rfl
        have hpos : s.pos + 1 ≤ text.length := by
          have : 0 < (text.drop s.pos).length := by rw [hd, List.length_cons]; omega
          rw [List.length_drop] at this; omega
        have hchar : ∀ g, Refs (s.pos + 1) pat' (text.drop (s.pos + 1)) g →
            Refs s.pos (p :: pat') (text.drop s.pos) g := by
          intro g hg
          rw [hd]
          exact .char _ _ _ _ _ _ h42 hpw hlet hg
        cases hst : s.star with
        | true =>
          obtain ⟨h1, h2, h3, h4⟩ := h.fresh hst
          refine ⟨s0, (s.pos : Int) - s0, gs, ?_⟩
          constructor
          · show (if (true && s.qmark) = true then false else s.qmark) = false
            rw [h.qm]; rfl
          · exact hd'
          · exact hpos
          · exact h.spos
          · simp only [h.qm, Bool.and_false, Bool.false_eq_true, if_false, Bool.and_self, if_true]
            rw [h.refs]; rfl
          · exact h.wild
          · exact h.wne
          · exact h.cont
          · intro hc
            simp only [h.qm, Bool.and_false, Bool.and_self, Bool.not_false, if_true, Bool.false_eq_true] at hc
          · intro _
            refine ⟨s.pos, [p], ?_, List.cons_ne_nil _ _, ?_, h2, rfl, h3, rfl, ?_⟩
            · show s.wpos = p :: pat'
              rw [← h1, hp]
            · intro e
              simp only [List.head?_cons, Option.some.injEq] at e
              exact h42 e
            · intro g hg
              show Refs s.pos s.wpos (text.drop s.pos) g
              rw [← h1, hp]
              exact hchar g hg
        | false =>
          obtain ⟨p0, q, h1, h2, h3, h4, h5, h6, h7, h8⟩ := h.going hst
          refine ⟨s0, len, gs, ?_⟩
          constructor
          · show (if (true && s.qmark) = true then false else s.qmark) = false
            rw [h.qm]; rfl
          · exact hd'
          · exact hpos
          · exact h.spos
          · simp only [h.qm, Bool.and_false, Bool.false_eq_true, if_false]
            exact h.refs
          · exact h.wild
          · exact h.wne
          · exact h.cont
          · intro hc
            simp only [Bool.and_false, Bool.false_eq_true, if_false] at hc
          · intro _
            refine ⟨p0, q ++ [p], ?_, ?_, ?_, h4, ?_, h6, h7, ?_⟩
            · show s.wpos = (q ++ [p]) ++ pat'
              rw [h1, hp, List.append_assoc]; rfl
            · intro e
              exact List.cons_ne_nil p [] (List.append_eq_nil_iff.1 e).2
            · rw [head_append h2]; exact h3
            · show s.pos + 1 = _
              rw [List.length_append, h5, List.length_cons]; rfl
            · intro g hg
              exact h8 g (by rw [hp]; exact hchar g hg)
      · rw [if_neg hlo]
        exact ⟨s0, len, gs, rinv_backtrack h hstr hhead⟩
  next c str' hs hp =>
    exact ⟨s0, len, gs, rinv_backtrack h (by rw [hs]; exact List.cons_ne_nil _ _)
      (by rw [hp]; intro e; cases e)⟩

theorem rloop (mask text : Bytes) : ∀ (k : Nat) (s : S) (s0 : Nat) (len : Int) (gs refs : List Ref),
    RInv mask text s s0 len gs → loop true k s = some (true, refs) → Refs 0 mask text refs.reverse := by
  intro k
  induction k with
  | zero => intro s s0 len gs refs _ h; cases h
  | succ k ih =>
    intro s s0 len gs refs hi h
    have hp := rpass mask text s s0 len gs hi
    unfold loop at h
    split at h
    next res rf e =>
      rw [e] at hp
      simp only [Option.some.injEq, Prod.mk.injEq] at h
      obtain ⟨rfl, rfl⟩ := h
      exact hp rfl
    next s' e =>
      rw [e] at hp
      obtain ⟨s0', len', gs', hi'⟩ := hp
      exact ih s' s0' len' gs' refs hi' h

/-- The first loop for a mask without `?` and `#`: nothing is recorded. -/
theorem prefix_nowild (all : Bytes) : ∀ (text mask : Bytes) (pos : Nat) (s : S),
    text = all.drop pos → pos ≤ all.length → (∀ p ∈ mask, ¬ IsWild p) →
    prefixLoop true mask text pos [] false = some s →
    s.str = all.drop s.pos ∧ s.pos ≤ all.length ∧ (∀ p ∈ s.pat, ¬ IsWild p) ∧ s.refs = [] ∧
    s.qmark = false ∧ s.star = false ∧ (s.str = [] ∨ s.pat.head? = some 42) ∧
    (∀ g, Refs s.pos s.pat s.str g → Refs pos mask text g) := by
  intro text
  induction text with
  | nil =>
    intro mask pos s ht hp hw h
    unfold prefixLoop at h
    simp only [Option.some.injEq] at h
    subst h
    exact ⟨ht, hp, hw, rfl, rfl, rfl, Or.inl rfl, fun _ h => h⟩
  | cons c text ih =>
    intro mask pos s ht hp hw h
    cases mask with
    | nil => unfold prefixLoop at h; cases h
    | cons p mask =>
      unfold prefixLoop at h
      by_cases h42 : p = 42
      · rw [if_pos h42] at h
        simp only [Option.some.injEq] at h
        subst h
        exact ⟨ht, hp, hw, rfl, rfl, rfl, Or.inr (by rw [h42]; rfl), fun _ h => h⟩
      · rw [if_neg h42] at h
        dsimp only at h
        have hpw := hw p (List.mem_cons_self ..)
        have hw' : ¬ ((true && (p == 63 || p == 35)) = true) := by
          unfold IsWild at hpw
          simp only [Bool.true_and, Bool.or_eq_true, beq_iff_eq]; exact hpw
        rw [if_neg hw', if_neg hw'] at h
        by_cases ha : accepts p c = true
        · rw [if_pos ha] at h
          simp only [Bool.and_false, Bool.false_eq_true, if_false] at h
          have hlet : SameLetter p c := by
            rcases glob_cons_inv ((accepts_iff p c [] [] h42).2 ⟨ha, .nil⟩) with ⟨hh, _⟩ | ⟨c', u', e, _, hh⟩
            · exact absurd hh h42
            · simp only [List.cons.injEq] at e
              rw [e.1]
              rcases hh with hh | hh | hh
              · exact absurd (Or.inl hh) hpw
              · exact absurd (Or.inr hh.1) hpw
              · exact hh.2
          have ht' : text = all.drop (pos + 1) := by rw [← List.tail_drop, ← ht]; rfl
          have hp' : pos + 1 ≤ all.length := by
            have : 0 < (all.drop pos).length := by rw [← ht, List.length_cons]; omega
            rw [List.length_drop] at this; omega
          obtain ⟨h1, h2, h3, h4, h5, h6, h7, h8⟩ :=
            ih mask (pos + 1) s ht' hp' (fun x hx => hw x (List.mem_cons_of_mem _ hx)) h
          exact ⟨h1, h2, h3, h4, h5, h6, h7, fun g hg => .char _ _ _ _ _ _ h42 hpw hlet (h8 g hg)⟩
        · rw [if_neg ha] at h; cases h

/-- **C57, masks without `?` and `#`.** When such a mask matches, the pieces recorded are those which
the stars stand for. -/
theorem refs_of_stars_partial (mask text : Bytes) (refs : List Ref) (hw : ∀ p ∈ mask, p ≠ 63 ∧ p ≠ 35)
    (h : run true mask text = some (true, refs)) : Refs 0 mask text refs := by
  have hw' : ∀ p ∈ mask, ¬ IsWild p := by
    intro p hp hc
    rcases hc with hc | hc
    · exact (hw p hp).1 hc
    · exact (hw p hp).2 hc
  unfold run at h
  cases hp : prefixLoop true mask text 0 [] false with
  | none => rw [hp] at h; simp only [Option.some.injEq, Prod.mk.injEq, Bool.false_eq_true, false_and] at h
  | some s =>
    rw [hp] at h
    obtain ⟨h1, h2, h3, h4, h5, h6, h7, h8⟩ := prefix_nowild text text mask 0 s rfl (Nat.zero_le _) hw' hp
    dsimp only at h
    cases hl : loop true (passes mask text) s with
    | none => rw [hl] at h; cases h
    | some r =>
      rw [hl] at h
      simp only [Option.map_some, Option.some.injEq, Prod.mk.injEq] at h
      obtain ⟨ha, hb⟩ := h
      obtain ⟨res, rf⟩ := r
      dsimp only at ha hb
      subst ha hb
      unfold passes loop pass at hl
      cases hs : s.str with
      | nil =>
        rw [hs] at hl
        unfold finish at hl
        simp only [h5, h6, h4, Bool.and_false, Bool.false_eq_true, if_false, and_true, Option.some.injEq,
          Prod.mk.injEq, List.isEmpty_iff] at hl
        obtain ⟨e1, e2⟩ := hl
        rw [← e2]
        refine h8 _ ?_
        rw [hs]
        have := skipStars_refs s.pos s.pat e1
        by_cases hh : s.pat.head? = some 42
        · rw [if_pos hh] at this ⊢; exact this
        · rw [if_neg hh] at this ⊢; exact this
      | cons c str' =>
        rcases h7 with h7 | h7
        · rw [hs] at h7; cases h7
        · obtain ⟨pat', hpat⟩ : ∃ pat', s.pat = 42 :: pat' := by
            cases hq : s.pat with
            | nil => rw [hq] at h7; cases h7
            | cons a l => rw [hq] at h7; simp only [List.head?_cons, Option.some.injEq] at h7; exact ⟨l, by rw [h7]⟩
          rw [hs, hpat] at hl
          simp only [if_true] at hl
          unfold onStar at hl
          simp only [h5, h6, h4, Bool.and_false, Bool.false_eq_true, if_false, Bool.not_false, Bool.true_and, if_true] at hl
          by_cases hn : pat' = []
          · rw [if_pos hn] at hl
            simp only [Option.some.injEq, Prod.mk.injEq, true_and] at hl
            rw [← hl]
            refine h8 _ ?_
            rw [hpat, hn]
            have := Refs.star s.pos [] s.str [] [] (by intro hc; cases hc) (.nil _)
            rw [List.append_nil] at this
            exact this
          · rw [if_neg hn] at hl
            refine rloop mask text _ _ s.pos 0 [] rf ?_ hl
            constructor
            · rfl
            · exact h1
            · exact h2
            · show s.str.tail = text.drop (s.pos + 1)
              rw [h1, List.tail_drop]
            · rfl
            · intro x hx
              exact h3 x (by rw [hpat]; exact List.mem_cons_of_mem _ hx)
            · exact hn
            · intro g hg
              refine h8 g ?_
              rw [hpat, h1]
              exact hg
            · intro _
              exact ⟨rfl, Nat.le_refl _, rfl, Or.inr ⟨rfl, by
                show s.str ≠ []
                rw [hs]; exact List.cons_ne_nil _ _⟩⟩
            · intro hc; cases hc

example : run true (lit "*.s*-*") (lit "a.b.S.x-y") = some (true, [⟨0, 3⟩, ⟨5, 2⟩, ⟨8, 1⟩]) := by
  decide +kernel

/-! ### What goes wrong -/

/-- The full statement of C57: the recorded pieces are those the wildcards stand for. -/
def RefsRight : Prop :=
  ∀ mask text refs, run true mask text = some (true, refs) → Refs 0 mask text refs

theorem refs_bounds {pos : Nat} {mask text : Bytes} {g : List Ref} (h : Refs pos mask text g) :
    ∀ r ∈ g, pos ≤ r.start ∧ 0 ≤ r.len ∧ (r.start : Int) + r.len ≤ ((pos + text.length : Nat) : Int) := by
  induction h with
  | nil => intro r hr; exact absurd hr List.not_mem_nil
  | char pos a c m u g _ _ _ _ ih =>
    intro r hr
    have := ih r hr
    rw [List.length_cons]
    refine ⟨by omega, this.2.1, by omega⟩
  | star pos m t u g _ _ ih =>
    intro r hr
    rw [List.length_append]
    rcases List.mem_cons.1 hr with rfl | hr
    · exact ⟨Nat.le_refl _, by dsimp only; omega, by dsimp only; omega⟩
    · have := ih r hr
      exact ⟨by omega, this.2.1, by omega⟩
  | stars pos m t g _ ih => exact ih
  | wild pos q m t u g _ _ _ _ _ ih =>
    intro r hr
    rw [List.length_append]
    rcases List.mem_cons.1 hr with rfl | hr
    · exact ⟨Nat.le_refl _, by dsimp only; omega, by dsimp only; omega⟩
    · have := ih r hr
      exact ⟨by omega, this.2.1, by omega⟩

/-- For the masks of the two theorems above, a reference to a wildcard which stands for at least one
character is replaced with exactly that piece of the text. -/
theorem reference_text_partial (mask text : Bytes) (refs : List Ref)
    (hm : 42 ∉ mask ∨ ∀ p ∈ mask, p ≠ 63 ∧ p ≠ 35)
    (h : run true mask text = some (true, refs)) (r : Ref) (hr : r ∈ refs) (hl : r.len ≠ 0) :
    ∃ a piece b, text = a ++ piece ++ b ∧ a.length = r.start ∧ (piece.length : Int) = r.len ∧
      refText text r = some piece := by
  have hR : Refs 0 mask text refs := by
    rcases hm with hm | hm
    · exact refs_without_star_partial mask text refs hm h
    · exact refs_of_stars_partial mask text refs hm h
  obtain ⟨_, h1, h2⟩ := refs_bounds hR r hr
  rw [Nat.zero_add] at h2
  refine ⟨text.take r.start, (text.drop r.start).take r.len.toNat, (text.drop r.start).drop r.len.toNat, ?_, ?_, ?_, ?_⟩
  · rw [List.append_assoc, List.take_append_drop, List.take_append_drop]
  · rw [List.length_take]; omega
  · rw [List.length_take, List.length_drop]; omega
  · unfold refText
    rw [if_neg (by omega), if_neg hl]

example : refText (lit "a.b.S.x-y") ⟨5, 2⟩ = some (lit ".x") := by decide +kernel

/-- With `*` and `?` in one mask the recorded pieces may be wrong, and a negative length is recorded
for some texts: expanding the reference then writes outside of the buffer. Here the title `aaaaac`
and the word mask `*aa?ac` of a filter. -/
theorem references_wrong : ¬ RefsRight ∧
    ∃ mask text refs r, run true mask text = some (true, refs) ∧ r ∈ refs ∧ refText text r = none := by
  have hrun : run true (lit "*aa?ac") (lit "aaaaac") = some (true, [⟨0, 0⟩, ⟨2, -1⟩, ⟨3, 1⟩]) := by
    decide +kernel
  refine ⟨?_, lit "*aa?ac", lit "aaaaac", _, ⟨2, -1⟩, hrun, by decide +kernel, by decide +kernel⟩
  intro h
  have := (refs_bounds (h _ _ _ hrun) ⟨2, -1⟩ (by decide +kernel)).2.1
  exact absurd this (by decide)

/-- A wildcard which stands for nothing: the reference is replaced with the whole rest of the text. -/
theorem empty_reference_wrong (text : Bytes) (r : Ref) (h : r.len = 0) :
    refText text r = some (text.drop r.start) := by
  unfold refText
  rw [if_neg (by omega), if_pos h]

/-- For instance the star of `show*s01` in the title `Shows01` yields `s01`. -/
example : run true (lit "show*s01") (lit "Shows01") = some (true, [⟨4, 0⟩]) ∧
    refText (lit "Shows01") ⟨4, 0⟩ = some (lit "s01") := by decide +kernel

end Verif.WildMask
