import Verif.CmdLine
import Verif.Tokens
/-
How a command line is split into arguments (C102).
-/
namespace Verif.CmdLine
open CStr

/-! ### Specification -/

/-- The text of an argument with each apostrophe written twice. -/
def doubled : Bytes → Bytes
  | [] => []
  | c :: a => if c = 39 then 39 :: 39 :: doubled a else c :: doubled a

/-- An argument in apostrophes. -/
def quoted (a : Bytes) : Bytes := 39 :: (doubled a ++ [39])

/-- The arguments one after the other with `n + 1` blanks before each of them. -/
def line (n : Nat) : List Bytes → Bytes
  | [] => []
  | a :: as => List.replicate (n + 1) 32 ++ a ++ line n as

/-! ### Proofs -/

theorem emit_cons (buf : Bytes) (h : buf ≠ []) (l : List Bytes) : emit buf l = buf :: l := by
  unfold emit; rw [if_neg h]

theorem loop_q_other (c : UInt8) (r buf : Bytes) (h : c ≠ 39) : loop (c :: r) buf .quote = loop r (push buf c) .quote := by
  cases r <;> simp [loop, h]

theorem loop_q_end (buf : Bytes) : loop [39] buf .quote = emit buf [] := by
  simp [loop]; rfl

theorem loop_q_two (d : UInt8) (r buf : Bytes) : loop (39 :: d :: r) buf .quote =
    if d = 39 ∧ buf.length < 1023 then loop r (buf ++ [39]) .quote else emit buf (loop (d :: r) [] .space) := by
  simp [loop]

theorem loop_space (c : UInt8) (r : Bytes) (buf : Bytes) : loop (c :: r) buf .space =
    if c = 32 then emit buf (loop r [] .space) else if c = 39 then loop r buf .quote else loop r (push buf c) .word := by
  cases r <;> simp [loop]

theorem loop_in_word (c : UInt8) (r : Bytes) (buf : Bytes) : loop (c :: r) buf .word =
    if c = 32 then emit buf (loop r [] .space) else loop r (push buf c) .word := by
  cases r <;> simp [loop]

theorem loop_blanks (n : Nat) (s : Bytes) : loop (List.replicate n 32 ++ s) [] .space = loop s [] .space := by
  induction n with
  | zero => rfl
  | succ n ih =>
    rw [List.replicate_succ, List.cons_append]
    show loop (32 :: (List.replicate n 32 ++ s)) [] .space = _
    rw [loop_space, if_pos rfl]
    exact ih

theorem loop_quote (a s : Bytes) (hs : s.head? ≠ some 39) (buf : Bytes) (h : buf.length + a.length ≤ 1023) :
    loop (doubled a ++ 39 :: s) buf .quote = emit (buf ++ a) (loop s [] .space) := by
  induction a generalizing buf with
  | nil =>
    rw [doubled, List.nil_append, List.append_nil]
    cases s with
    | nil => exact loop_q_end buf
    | cons d s =>
      rw [loop_q_two, if_neg]
      intro g
      exact hs (by rw [g.1]; rfl)
  | cons c a ih =>
    rw [List.length_cons] at h
    rw [doubled]
    by_cases hc : c = 39
    · rw [if_pos hc, List.cons_append, List.cons_append, loop_q_two, if_pos ⟨rfl, by omega⟩, ih _ (by simp; omega), hc]
      simp
    · rw [if_neg hc, List.cons_append, loop_q_other _ _ _ hc]
      · have hp : push buf c = buf ++ [c] := by unfold push; rw [if_pos (by omega)]
        rw [hp, ih _ (by simp; omega)]
        simp

theorem line_head (n : Nat) (as : List Bytes) : (line n as).head? ≠ some 39 := by
  cases as with
  | nil => simp [line]
  | cons a as => simp [line, List.replicate_succ]

theorem quoted_append (a s : Bytes) : quoted a ++ s = 39 :: (doubled a ++ 39 :: s) := by
  unfold quoted; simp

/-- C102: arguments in apostrophes, with each apostrophe of theirs written twice, are the arguments which the program
gets, whatever bytes they contain and however many blanks are between them, if none is empty and none has more than
1023 bytes. -/
theorem quoted_arguments (n : Nat) (as : List Bytes) (h : ∀ a ∈ as, a ≠ [] ∧ a.length ≤ 1023) :
    split (line n (as.map quoted)) = as := by
  unfold split
  induction as with
  | nil => rfl
  | cons a as ih =>
    have ha := h a (by simp)
    rw [List.map_cons, line, List.append_assoc, loop_blanks, quoted_append, loop_space, if_neg (by decide), if_pos rfl,
      loop_quote a _ (line_head n _) [] (by simpa using ha.2), List.nil_append, emit_cons a ha.1,
      ih (fun b hb => h b (List.mem_cons_of_mem _ hb))]

/-- A word which needs no apostrophes: without blanks and not beginning with an apostrophe. -/
def Plain (a : Bytes) : Prop := a ≠ [] ∧ a.length ≤ 1023 ∧ (32 : UInt8) ∉ a ∧ a.head? ≠ some 39

theorem loop_word (a s : Bytes) (hs : s = [] ∨ s.head? = some 32) (ha : (32 : UInt8) ∉ a) (buf : Bytes) (hb : buf ++ a ≠ [])
    (h : buf.length + a.length ≤ 1023) :
    loop (a ++ s) buf .word = (buf ++ a) :: loop s [] .space := by
  induction a generalizing buf with
  | nil =>
    rw [List.append_nil] at hb
    rw [List.nil_append, List.append_nil]
    rcases hs with rfl | hs
    · rw [loop, emit_cons _ hb]; rfl
    · cases s with
      | nil => exact nomatch hs
      | cons d s =>
        have : d = 32 := Option.some.inj hs
        subst this
        rw [loop_in_word, if_pos rfl, emit_cons _ hb, loop_space, if_pos rfl]
        rfl
  | cons c a ih =>
    rw [List.length_cons] at h
    have hc : c ≠ 32 := fun e => ha (by rw [e]; exact List.mem_cons_self)
    have hp : push buf c = buf ++ [c] := by unfold push; rw [if_pos (by omega)]
    rw [List.cons_append, loop_in_word, if_neg hc, hp, ih (fun m => ha (List.mem_cons_of_mem _ m)) _ (by simp) (by simp; omega)]
    simp

theorem line_start (n : Nat) (as : List Bytes) : line n as = [] ∨ (line n as).head? = some 32 := by
  cases as with
  | nil => exact Or.inl rfl
  | cons a as => exact Or.inr (by simp [line, List.replicate_succ])

/-- C102: words with blanks between them are the arguments. -/
theorem plain_arguments (n : Nat) (as : List Bytes) (h : ∀ a ∈ as, Plain a) : split (line n as) = as := by
  unfold split
  induction as with
  | nil => rfl
  | cons a as ih =>
    obtain ⟨h1, h2, h3, h4⟩ := h a (by simp)
    rw [line, List.append_assoc, loop_blanks]
    cases a with
    | nil => exact absurd rfl h1
    | cons c a =>
      have hc : c ≠ 32 := fun e => h3 (by rw [e]; exact List.mem_cons_self)
      have hq : c ≠ 39 := fun e => h4 (by rw [e]; rfl)
      rw [List.cons_append, loop_space, if_neg hc, if_neg hq]
      have hp : push [] c = [c] := rfl
      rw [hp, loop_word a _ (line_start n as) (fun m => h3 (List.mem_cons_of_mem _ m)) [c] (by simp)
        (by simp at h2 ⊢; omega), ih (fun b hb => h b (List.mem_cons_of_mem _ hb))]
      rfl

theorem loop_bounds (s : Bytes) : ∀ (k : Nat), s.length ≤ k → ∀ (buf : Bytes) (m : Mode), buf.length ≤ 1023 →
    ∀ a ∈ loop s buf m, a ≠ [] ∧ a.length ≤ 1023 := by
  intro k
  induction k generalizing s with
  | zero =>
    intro hk buf m hb a ha
    have : s = [] := List.eq_nil_of_length_eq_zero (by omega)
    subst this
    rw [loop] at ha
    unfold emit at ha
    by_cases e : buf = []
    · rw [if_pos e] at ha; exact nomatch ha
    · rw [if_neg e] at ha
      rw [List.mem_singleton.mp ha]; exact ⟨e, hb⟩
  | succ k ih =>
    intro hk buf m hb a ha
    have em : ∀ (l : List Bytes), a ∈ emit buf l → (∀ x ∈ l, x ≠ [] ∧ x.length ≤ 1023) → a ≠ [] ∧ a.length ≤ 1023 := by
      intro l h g
      unfold emit at h
      by_cases e : buf = []
      · rw [if_pos e] at h; exact g a h
      · rw [if_neg e] at h
        rcases List.mem_cons.mp h with h | h
        · rw [h]; exact ⟨e, hb⟩
        · exact g a h
    have hpush : ∀ c, (push buf c).length ≤ 1023 := by
      intro c; unfold push
      by_cases e : buf.length < 1023
      · rw [if_pos e]; simp; omega
      · rw [if_neg e]; exact hb
    cases s with
    | nil =>
      rw [loop] at ha
      exact em [] ha (fun _ h => nomatch h)
    | cons c r =>
      rw [List.length_cons] at hk
      cases m with
      | quote =>
        by_cases e : c = 39
        · subst e
          cases r with
          | nil => rw [loop_q_end] at ha; exact em _ ha (fun x hx => nomatch hx)
          | cons d r =>
            rw [loop_q_two] at ha
            rw [List.length_cons] at hk
            by_cases g : d = 39 ∧ buf.length < 1023
            · rw [if_pos g] at ha
              exact ih r (by omega) _ _ (by simp; omega) a ha
            · rw [if_neg g] at ha
              exact em _ ha (ih (d :: r) (by simp; omega) _ _ (by simp))
        · rw [loop_q_other _ _ _ e] at ha
          exact ih r (by omega) _ _ (hpush c) a ha
      | space =>
        rw [loop_space] at ha
        by_cases e : c = 32
        · rw [if_pos e] at ha
          exact em _ ha (ih r (by omega) _ _ (by simp))
        · rw [if_neg e] at ha
          by_cases g : c = 39
          · rw [if_pos g] at ha
            exact ih r (by omega) _ _ hb a ha
          · rw [if_neg g] at ha
            exact ih r (by omega) _ _ (hpush c) a ha
      | word =>
        rw [loop_in_word] at ha
        by_cases e : c = 32
        · rw [if_pos e] at ha
          exact em _ ha (ih r (by omega) _ _ (by simp))
        · rw [if_neg e] at ha
          exact ih r (by omega) _ _ (hpush c) a ha

/-- C102: whatever the text, no argument is empty or longer than the buffer of 1024 bytes with its NUL. -/
theorem arguments_bounded (s : Bytes) : ∀ a ∈ split s, a ≠ [] ∧ a.length ≤ 1023 :=
  loop_bounds s s.length (Nat.le_refl _) [] .space (by simp)

theorem loop_bytes (s : Bytes) : ∀ (k : Nat), s.length ≤ k → ∀ (buf : Bytes) (m : Mode),
    (loop s buf m).flatten.Sublist (buf ++ s) := by
  intro k
  induction k generalizing s with
  | zero =>
    intro hk buf m
    have : s = [] := List.eq_nil_of_length_eq_zero (by omega)
    subst this
    rw [loop]
    unfold emit
    by_cases e : buf = []
    · rw [if_pos e]; simp
    · rw [if_neg e]; simp
  | succ k ih =>
    intro hk buf m
    have em : ∀ (l : List Bytes) (t : Bytes), l.flatten.Sublist t → (emit buf l).flatten.Sublist (buf ++ t) := by
      intro l t h
      unfold emit
      by_cases e : buf = []
      · rw [if_pos e, e]; exact h
      · rw [if_neg e, List.flatten_cons]
        exact (List.Sublist.refl buf).append h
    have hpush : ∀ (c : UInt8) (r : Bytes) (l : Bytes), l.Sublist (push buf c ++ r) → l.Sublist (buf ++ c :: r) := by
      intro c r l h
      unfold push at h
      by_cases e : buf.length < 1023
      · rw [if_pos e] at h; simpa using h
      · rw [if_neg e] at h
        exact h.trans ((List.Sublist.refl buf).append (List.sublist_cons_self c r))
    cases s with
    | nil =>
      rw [loop]
      exact em [] [] (by simp)
    | cons c r =>
      rw [List.length_cons] at hk
      have skip : ∀ l : Bytes, l.Sublist r → l.Sublist (c :: r) := fun l h => h.trans (List.sublist_cons_self c r)
      cases m with
      | quote =>
        by_cases e : c = 39
        · subst e
          cases r with
          | nil => rw [loop_q_end]; exact em _ _ (by simp)
          | cons d r =>
            rw [loop_q_two]
            rw [List.length_cons] at hk
            by_cases g : d = 39 ∧ buf.length < 1023
            · rw [if_pos g]
              have := ih r (by omega) (buf ++ [39]) .quote
              refine this.trans ?_
              rw [List.append_assoc]
              exact (List.Sublist.refl buf).append ((List.Sublist.refl [39]).append (List.sublist_cons_self d r))
            · rw [if_neg g]
              exact em _ _ (skip _ (ih (d :: r) (by simp; omega) [] .space))
        · rw [loop_q_other _ _ _ e]
          exact hpush c r _ (ih r (by omega) _ _)
      | space =>
        rw [loop_space]
        by_cases e : c = 32
        · rw [if_pos e]
          exact em _ _ (skip _ (ih r (by omega) [] .space))
        · rw [if_neg e]
          by_cases g : c = 39
          · rw [if_pos g]
            exact (ih r (by omega) buf .quote).trans ((List.Sublist.refl buf).append (List.sublist_cons_self c r))
          · rw [if_neg g]
            exact hpush c r _ (ih r (by omega) _ _)
      | word =>
        rw [loop_in_word]
        by_cases e : c = 32
        · rw [if_pos e]
          exact em _ _ (skip _ (ih r (by omega) [] .space))
        · rw [if_neg e]
          exact hpush c r _ (ih r (by omega) _ _)

/-- C102: whatever the text, the arguments one after the other consist of bytes of the text in its order: nothing is
invented or moved. -/
theorem arguments_of_text (s : Bytes) : (split s).flatten.Sublist s := loop_bytes s s.length (Nat.le_refl _) [] .space

/-- C102, refuted for long arguments: what goes beyond 1023 bytes is dropped without a message. -/
theorem long_argument_cut (a b : Bytes) (h : Plain a) (hl : a.length = 1023) (hb : (32 : UInt8) ∉ b) :
    split (a ++ b) = [a] := by
  obtain ⟨h1, h2, h3, h4⟩ := h
  have key : ∀ (x y buf : Bytes), (32 : UInt8) ∉ x → buf.length + x.length ≤ 1023 → loop (x ++ y) buf .word = loop y (buf ++ x) .word := by
    intro x
    induction x with
    | nil => intro y buf _ _; rw [List.append_nil]; rfl
    | cons c x ih =>
      intro y buf hx hlen
      rw [List.length_cons] at hlen
      have hp : push buf c = buf ++ [c] := by unfold push; rw [if_pos (by omega)]
      rw [List.cons_append, loop_in_word, if_neg (fun e => hx (by rw [e]; exact List.mem_cons_self)), hp,
        ih _ _ (fun m => hx (List.mem_cons_of_mem _ m)) (by simp; omega)]
      simp
  have drop : ∀ (y buf : Bytes), (32 : UInt8) ∉ y → 1023 ≤ buf.length → loop y buf .word = [buf] := by
    intro y
    induction y with
    | nil => intro buf _ hbuf; rw [loop, emit_cons]; intro e; rw [e] at hbuf; simp at hbuf
    | cons c y ih =>
      intro buf hy hbuf
      have hp : push buf c = buf := by unfold push; rw [if_neg (by omega)]
      rw [loop_in_word, if_neg (fun e => hy (by rw [e]; exact List.mem_cons_self)), hp]
      exact ih buf (fun m => hy (List.mem_cons_of_mem _ m)) hbuf
  unfold split
  cases a with
  | nil => exact absurd rfl h1
  | cons c a =>
    rw [List.length_cons] at hl
    rw [List.cons_append, loop_space, if_neg (fun e => h3 (by rw [e]; exact List.mem_cons_self)),
      if_neg (fun e => h4 (by rw [e]; rfl))]
    have hp : push [] c = [c] := rfl
    rw [hp, key a b [c] (fun m => h3 (List.mem_cons_of_mem _ m)) (by simp; omega), drop b _ hb (by simp; omega)]
    rfl

/-- C102, refuted for empty arguments: they disappear. -/
theorem empty_argument_lost (n : Nat) (as bs : List Bytes) (ha : ∀ a ∈ as, a ≠ [] ∧ a.length ≤ 1023)
    (hb : ∀ a ∈ bs, a ≠ [] ∧ a.length ≤ 1023) :
    split (line n ((as ++ [] :: bs).map quoted)) = as ++ bs := by
  unfold split
  induction as with
  | nil =>
    rw [List.nil_append, List.map_cons, line, List.append_assoc, loop_blanks, quoted_append, loop_space, if_neg (by decide), if_pos rfl,
      loop_quote [] _ (line_head n _) [] (by simp)]
    exact quoted_arguments n bs hb
  | cons a as ih =>
    have h := ha a (by simp)
    rw [List.cons_append, List.map_cons, line, List.append_assoc, loop_blanks, quoted_append, loop_space, if_neg (by decide), if_pos rfl,
      loop_quote a _ (line_head n _) [] (by simpa using h.2), List.nil_append, emit_cons a h.1, List.cons_append, ih (fun b hb => ha b (List.mem_cons_of_mem _ hb))]

example : split (lit "'C:\\Program Files\\unrar' x  'it''s' -p-") =
    [lit "C:\\Program Files\\unrar", lit "x", lit "it's", lit "-p-"] := by decide +kernel
example : split (lit "a '' b'c d") = [lit "a", lit "b'c", lit "d"] := by decide +kernel
example : line 0 ([lit "a b", lit "c'"].map quoted) = lit " 'a b' 'c'''" := by decide +kernel
example : ∀ a ∈ [lit "a b", lit "c'"], a ≠ [] ∧ a.length ≤ 1023 := by decide +kernel

end Verif.CmdLine
