import Verif.TaskDef
import Verif.OptValueProps
import Verif.OptOldProps
/-
What the time of a task means (C101).
-/
namespace Verif.TaskDef
open CStr OptStore OptValue

/-! ### Specification -/

/-- A text of digits which is not empty. -/
def Digits (s : Bytes) : Prop := s ≠ [] ∧ ∀ b ∈ s, 48 ≤ b.toNat ∧ b.toNat ≤ 57

/-! ### Proofs -/

theorem isDigit_iff (b : UInt8) : isDigit b = true ↔ 48 ≤ b.toNat ∧ b.toNat ≤ 57 := by
  unfold isDigit; simp

theorem digits_foldl (ds rest : Bytes) (h : ∀ b ∈ ds, 48 ≤ b.toNat ∧ b.toNat ≤ 57)
    (hr : ∀ b, rest.head? = some b → isDigit b = false) (acc : Nat) :
    digits acc (ds ++ rest) = ds.foldl (fun a b => a * 10 + (b.toNat - 48)) acc := by
  induction ds generalizing acc with
  | nil =>
    cases rest with
    | nil => rfl
    | cons b rest =>
      rw [List.nil_append, digits, if_neg (by rw [hr b rfl]; exact Bool.false_ne_true)]
      rfl
  | cons d ds ih =>
    rw [List.cons_append, digits, if_pos ((isDigit_iff d).2 (h d (by simp))),
      ih (fun b hb => h b (List.mem_cons_of_mem _ hb))]
    rfl

theorem intOf_digits (ds rest : Bytes) (h : Digits ds) (hr : ∀ b, rest.head? = some b → isDigit b = false)
    (hv : valueIn 10 ds < 2 ^ 31) : intOf (ds ++ rest) = valueIn 10 ds := by
  obtain ⟨hne, hd⟩ := h
  have hf := digits_foldl ds rest hd hr 0
  cases ds with
  | nil => exact absurd rfl hne
  | cons d ds =>
    have hf' := digit_facts 10 (by omega) d (by have := hd d (by simp); omega)
    have e : atoll (d :: ds ++ rest) = clamp64 (valueIn 10 (d :: ds)) := by
      unfold atoll
      rw [List.cons_append, List.dropWhile_cons, if_neg (by rw [hf'.1]; exact Bool.false_ne_true)]
      dsimp only
      rw [if_neg hf'.2.1, if_neg hf'.2.2]
      rw [List.cons_append] at hf
      rw [hf]
      rfl
    unfold intOf
    rw [e]
    exact clamp_int32 _ (by omega)

theorem intOf_other (s : Bytes) (h : ∀ b, s.head? = some b → isSpace b = false ∧ isDigit b = false ∧ b ≠ 45 ∧ b ≠ 43) :
    intOf s = 0 := by
  cases s with
  | nil => decide
  | cons b s =>
    obtain ⟨h1, h2, h3, h4⟩ := h b rfl
    have : atoll (b :: s) = 0 := by
      unfold atoll
      rw [List.dropWhile_cons, if_neg (by rw [h1]; exact Bool.false_ne_true)]
      dsimp only
      rw [if_neg h3, if_neg h4, digits, if_neg (by rw [h2]; exact Bool.false_ne_true)]
      decide
    unfold intOf
    rw [this]
    decide

theorem timeChar_of_digit (b : UInt8) (h : 48 ≤ b.toNat ∧ b.toNat ≤ 57) : timeChar b = true := by
  have : ∀ n : Fin 256, 48 ≤ n.val ∧ n.val ≤ 57 → timeChar (UInt8.ofNat n) = true := by decide +kernel
  have g := this ⟨b.toNat, b.toNat_lt⟩ h
  simpa using g

theorem digit_ne (b : UInt8) (h : 48 ≤ b.toNat ∧ b.toNat ≤ 57) : b ≠ 58 ∧ b ≠ 42 ∧ b ≠ 44 ∧ b ≠ 59 ∧ b ≠ 45 ∧ b ≠ 32 := by
  refine ⟨?_, ?_, ?_, ?_, ?_, ?_⟩ <;> (intro e; subst e; exact absurd h (by decide))

/-- What the second part of the function does with a text of the right form. -/
theorem parseTime_split (m0 : Option Int) (a b : Bytes) (ha : ∀ c ∈ a, timeChar c = true ∧ c ≠ 58)
    (hb : ∀ c ∈ b, timeChar c = true ∧ c ≠ 58) :
    parseTime m0 (a ++ 58 :: b) =
      if a.head? ≠ some 42 ∧ (intOf (a ++ 58 :: b) < 0 ∨ 23 < intOf (a ++ 58 :: b)) then none
      else if b.head? = some 42 then none
      else if intOf b < 0 ∨ 59 < intOf b then none
      else some (if a.head? = some 42 then -2 else intOf (a ++ 58 :: b), some (intOf b)) := by
  have hhead : (a ++ 58 :: b).head? = some 42 ↔ a.head? = some 42 := by
    cases a with
    | nil => simp
    | cons c a => simp
  unfold parseTime
  rw [if_neg (by
    intro e
    have := congrArg (List.count (58 : UInt8)) e
    rw [List.count_append, List.count_cons_self, show List.count (58 : UInt8) (lit "*") = 0 from by decide] at this
    omega)]
  rw [if_neg (by
    rw [Bool.not_eq_true', Bool.not_eq_false, List.all_eq_true]
    intro c hc
    rcases List.mem_append.mp hc with h | h
    · exact (ha c h).1
    · rcases List.mem_cons.mp h with rfl | h
      · decide
      · exact (hb c h).1)]
  have hc0 : ∀ l : Bytes, (∀ c ∈ l, timeChar c = true ∧ c ≠ 58) → List.count (58 : UInt8) l = 0 :=
    fun l h => List.count_eq_zero.mpr (fun m => (h 58 m).2 rfl)
  rw [if_neg (by rw [List.count_append, List.count_cons_self, hc0 a ha, hc0 b hb]; decide)]
  rw [splitAt_at b (fun m => (ha 58 m).2 rfl)]
  dsimp only
  by_cases g : a.head? = some 42
  · have g2 := hhead.2 g
    rw [if_neg (fun x => x.1 g2), if_neg (c := a.head? ≠ some 42 ∧ _) (fun x => x.1 g), if_pos g2, if_pos g]
  · have g2 : ¬ (a ++ 58 :: b).head? = some 42 := fun e => g (hhead.1 e)
    rw [if_neg (c := (a ++ 58 :: b).head? = some 42) g2, if_neg (c := a.head? = some 42) g]
    by_cases k : intOf (a ++ 58 :: b) < 0 ∨ 23 < intOf (a ++ 58 :: b)
    · rw [if_pos ⟨g2, k⟩, if_pos ⟨g, k⟩]
    · rw [if_neg (fun x => k x.2), if_neg (c := a.head? ≠ some 42 ∧ _) (fun x => k x.2)]

theorem digits_timeChars {ds : Bytes} (h : Digits ds) : ∀ c ∈ ds, timeChar c = true ∧ c ≠ 58 :=
  fun c hc => ⟨timeChar_of_digit c (h.2 c hc), (digit_ne c (h.2 c hc)).1⟩

theorem digits_head {ds : Bytes} (h : Digits ds) : ds.head? ≠ some 42 := by
  intro e
  exact (digit_ne 42 (h.2 42 (List.mem_of_mem_head? e))).2.1 rfl

theorem intOf_minutes (ms : Bytes) (h : Digits ms) (hv : valueIn 10 ms < 2 ^ 31) : intOf ms = valueIn 10 ms := by
  have := intOf_digits ms [] h (fun _ e => nomatch e) hv
  rwa [List.append_nil] at this

theorem colon_head (b : Bytes) : ∀ c, (58 :: b : Bytes).head? = some c → isDigit c = false := by
  intro c hc
  have : c = 58 := (Option.some.inj hc).symm
  subst this; decide

/-- C101: `h:mm` is that time of the day, with any number of digits. -/
theorem time_clock (m0 : Option Int) (hs ms : Bytes) (h1 : Digits hs) (h2 : Digits ms) (hh : valueIn 10 hs < 24)
    (hm : valueIn 10 ms < 60) : parseTime m0 (hs ++ lit ":" ++ ms) = some ((valueIn 10 hs : Int), some (valueIn 10 ms : Int)) := by
  have e : hs ++ lit ":" ++ ms = hs ++ 58 :: ms := by rw [List.append_assoc]; rfl
  rw [e, parseTime_split m0 hs ms (digits_timeChars h1) (digits_timeChars h2),
    intOf_digits hs _ h1 (colon_head ms) (by omega), intOf_minutes ms h2 (by omega),
    if_neg (fun x => by omega), if_neg (digits_head h2), if_neg (by omega), if_neg (digits_head h1)]

/-- C101: `*:mm` is every hour at that minute (-2 makes the caller add a task for each hour). -/
theorem time_every_hour (m0 : Option Int) (ms : Bytes) (h2 : Digits ms) (hm : valueIn 10 ms < 60) :
    parseTime m0 (lit "*:" ++ ms) = some (-2, some (valueIn 10 ms : Int)) := by
  have e : lit "*:" ++ ms = [42] ++ 58 :: ms := rfl
  rw [e, parseTime_split m0 [42] ms (by decide) (digits_timeChars h2), intOf_minutes ms h2 (by omega),
    if_neg (fun x => x.1 rfl), if_neg (digits_head h2), if_neg (by omega)]
  rfl

/-- C101: `*` is the start of the program; the minutes are not written. -/
theorem time_startup (m0 : Option Int) : parseTime m0 (lit "*") = some (-1, m0) := by
  unfold parseTime; rw [if_pos rfl]

/-- C101: hours from 24 on and minutes from 60 on are reported. -/
theorem time_too_large (m0 : Option Int) (hs ms : Bytes) (h1 : Digits hs) (h2 : Digits ms)
    (hh : valueIn 10 hs < 2 ^ 31) (hm : valueIn 10 ms < 2 ^ 31) (h : 24 ≤ valueIn 10 hs ∨ 60 ≤ valueIn 10 ms) :
    parseTime m0 (hs ++ lit ":" ++ ms) = none := by
  have e : hs ++ lit ":" ++ ms = hs ++ 58 :: ms := by rw [List.append_assoc]; rfl
  rw [e, parseTime_split m0 hs ms (digits_timeChars h1) (digits_timeChars h2),
    intOf_digits hs _ h1 (colon_head ms) hh, intOf_minutes ms h2 hm]
  by_cases g : 24 ≤ valueIn 10 hs
  · rw [if_pos ⟨digits_head h1, by omega⟩]
  · rw [if_neg (fun x => by omega), if_neg (digits_head h2), if_pos (by omega)]

/-- C101: a text without exactly one colon, or with another character than digits, blanks and stars, is reported. -/
theorem time_bad_text (m0 : Option Int) (s : Bytes) (hs : s ≠ lit "*")
    (h : List.count 58 s ≠ 1 ∨ ∃ c ∈ s, ¬ (48 ≤ c.toNat ∧ c.toNat ≤ 57) ∧ c ≠ 58 ∧ c ≠ 32 ∧ c ≠ 42) : parseTime m0 s = none := by
  unfold parseTime
  rw [if_neg hs]
  by_cases g : (!s.all timeChar) = true
  · rw [if_pos g]
  · rw [if_neg g]
    rcases h with h | ⟨c, hc, h1, h2, h3, h4⟩
    · rw [if_pos h]
    · exfalso
      apply g
      rw [Bool.not_eq_true', ← Bool.not_eq_true, List.all_eq_true]
      intro k
      have hk := k c hc
      have : ∀ n : Fin 256, timeChar (UInt8.ofNat n) = true → (48 ≤ n.val ∧ n.val ≤ 57) ∨ n.val = 58 ∨ n.val = 32 ∨ n.val = 42 := by
        decide +kernel
      have t := this ⟨c.toNat, c.toNat_lt⟩ (by simpa using hk)
      dsimp only at t
      rcases t with t | t | t | t
      · exact h1 t
      · exact h2 (UInt8.toNat_inj.mp t)
      · exact h3 (UInt8.toNat_inj.mp t)
      · exact h4 (UInt8.toNat_inj.mp t)

/-- C101: minutes can not be a star. -/
theorem time_every_minute (m0 : Option Int) (a b : Bytes) : parseTime m0 (a ++ lit ":*" ++ b) = none := by
  by_cases h : List.count 58 (a ++ lit ":*" ++ b) ≠ 1 ∨
      ∃ c ∈ (a ++ lit ":*" ++ b), ¬ (48 ≤ c.toNat ∧ c.toNat ≤ 57) ∧ c ≠ 58 ∧ c ≠ 32 ∧ c ≠ 42
  · refine time_bad_text m0 _ ?_ h
    intro e
    have := congrArg List.length e
    simp [lit] at this
    omega
  · have e : a ++ lit ":*" ++ b = a ++ 58 :: (42 :: b) := by rw [List.append_assoc]; rfl
    rw [e] at h ⊢
    have hall : ∀ c ∈ a ++ 58 :: (42 :: b), timeChar c = true := by
      intro c hc
      by_cases g : (48 ≤ c.toNat ∧ c.toNat ≤ 57)
      · exact timeChar_of_digit c g
      · have g2 : c = 58 ∨ c = 32 ∨ c = 42 := Classical.byContradiction (fun k => h (Or.inr ⟨c, hc, g,
          fun x => k (Or.inl x), fun x => k (Or.inr (Or.inl x)), fun x => k (Or.inr (Or.inr x))⟩))
        rcases g2 with rfl | rfl | rfl <;> decide
    have hcount : List.count 58 (a ++ 58 :: (42 :: b)) = 1 := Classical.byContradiction (fun k => h (Or.inl k))
    rw [List.count_append, List.count_cons_self] at hcount
    have ha : ∀ c ∈ a, timeChar c = true ∧ c ≠ 58 := by
      intro c hc
      refine ⟨hall c (List.mem_append_left _ hc), ?_⟩
      intro e; subst e
      have := List.count_pos_iff.mpr hc
      omega
    have hb : ∀ c ∈ 42 :: b, timeChar c = true ∧ c ≠ 58 := by
      intro c hc
      refine ⟨hall c (List.mem_append_right _ (List.mem_cons_of_mem _ hc)), ?_⟩
      intro e; subst e
      have := List.count_pos_iff.mpr hc
      omega
    rw [parseTime_split m0 a (42 :: b) ha hb, if_pos (show (42 :: b : Bytes).head? = some 42 from rfl)]
    by_cases k : a.head? ≠ some 42 ∧ (intOf (a ++ 58 :: 42 :: b) < 0 ∨ 23 < intOf (a ++ 58 :: 42 :: b))
    · rw [if_pos k]
    · rw [if_neg k]

/-- C101: whatever the text, an accepted time is the start of the program, or a minute of every hour or of one hour of the
day. -/
theorem time_range (m0 : Option Int) (s : Bytes) (h : Int) (m : Option Int) (e : parseTime m0 s = some (h, m)) :
    (s = lit "*" ∧ h = -1 ∧ m = m0) ∨ ((h = -2 ∨ 0 ≤ h ∧ h ≤ 23) ∧ ∃ k : Int, m = some k ∧ 0 ≤ k ∧ k ≤ 59) := by
  unfold parseTime at e
  by_cases c1 : s = lit "*"
  · rw [if_pos c1] at e
    cases e
    exact Or.inl ⟨c1, rfl, rfl⟩
  · rw [if_neg c1] at e
    right
    by_cases c2 : (!s.all timeChar) = true
    · rw [if_pos c2] at e; exact nomatch e
    · rw [if_neg c2] at e
      by_cases c3 : s.count 58 ≠ 1
      · rw [if_pos c3] at e; exact nomatch e
      · rw [if_neg c3] at e
        cases hsp : splitAt 58 s with
        | none => rw [hsp] at e; exact nomatch e
        | some p =>
          rw [hsp] at e
          dsimp only at e
          by_cases c4 : s.head? = some 42
          · rw [if_pos c4, if_neg (fun x => x.1 c4)] at e
            by_cases c5 : p.2.head? = some 42
            · rw [if_pos c5] at e; exact nomatch e
            · rw [if_neg c5] at e
              by_cases c6 : intOf p.2 < 0 ∨ 59 < intOf p.2
              · rw [if_pos c6] at e; exact nomatch e
              · rw [if_neg c6] at e
                cases e
                exact ⟨Or.inl rfl, _, rfl, by omega, by omega⟩
          · rw [if_neg c4] at e
            by_cases c7 : intOf s < 0 ∨ 23 < intOf s
            · rw [if_pos ⟨c4, c7⟩] at e; exact nomatch e
            · rw [if_neg (fun x => c7 x.2)] at e
              by_cases c5 : p.2.head? = some 42
              · rw [if_pos c5] at e; exact nomatch e
              · rw [if_neg c5] at e
                by_cases c6 : intOf p.2 < 0 ∨ 59 < intOf p.2
                · rw [if_pos c6] at e; exact nomatch e
                · rw [if_neg c6] at e
                  cases e
                  exact ⟨Or.inr ⟨by omega, by omega⟩, _, rfl, by omega, by omega⟩

/-- C101, refuted: not every text which is no time is reported. What follows the first blank or star of the hours or
minutes is ignored. -/
theorem time_garbage (m0 : Option Int) (hs ms x y : Bytes) (h1 : Digits hs) (h2 : Digits ms) (hh : valueIn 10 hs < 24)
    (hm : valueIn 10 ms < 60) (hx : ∀ c ∈ x, timeChar c = true ∧ c ≠ 58) (hy : ∀ c ∈ y, timeChar c = true ∧ c ≠ 58)
    (hx0 : ∀ c, x.head? = some c → isDigit c = false) (hy0 : ∀ c, y.head? = some c → isDigit c = false) :
    parseTime m0 (hs ++ x ++ lit ":" ++ ms ++ y) = some ((valueIn 10 hs : Int), some (valueIn 10 ms : Int)) := by
  have e : hs ++ x ++ lit ":" ++ ms ++ y = (hs ++ x) ++ 58 :: (ms ++ y) := by
    have : lit ":" = [58] := by decide
    rw [this]; simp
  have hhd : ∀ (a b : Bytes), Digits a → (a ++ b).head? ≠ some 42 := by
    intro a b ha
    cases a with
    | nil => exact absurd rfl ha.1
    | cons c a =>
      intro e
      exact digits_head ha e
  have hin : ∀ (a b : Bytes), Digits a → (∀ c ∈ b, timeChar c = true ∧ c ≠ 58) → ∀ c ∈ a ++ b, timeChar c = true ∧ c ≠ 58 := by
    intro a b ha hb c hc
    rcases List.mem_append.mp hc with h | h
    · exact digits_timeChars ha c h
    · exact hb c h
  rw [e, parseTime_split m0 _ _ (hin hs x h1 hx) (hin ms y h2 hy), List.append_assoc,
    intOf_digits hs _ h1 (by
      intro c hc
      cases x with
      | nil => exact colon_head _ c hc
      | cons d x => exact hx0 c hc) (by omega),
    intOf_digits ms y h2 hy0 (by omega), if_neg (fun z => by omega), if_neg (hhd ms y h2), if_neg (by omega),
    if_neg (hhd hs x h1)]

/-- C101, refuted: missing hours or minutes count as 0. -/
theorem time_missing_minutes (m0 : Option Int) (hs : Bytes) (h1 : Digits hs) (hh : valueIn 10 hs < 24) :
    parseTime m0 (hs ++ lit ":") = some ((valueIn 10 hs : Int), some 0) := by
  have e : hs ++ lit ":" = hs ++ 58 :: [] := rfl
  rw [e, parseTime_split m0 hs [] (digits_timeChars h1) (fun _ h => nomatch h), intOf_digits hs _ h1 (colon_head []) (by omega),
    if_neg (fun x => by omega), if_neg (by decide), if_neg (by decide), if_neg (digits_head h1)]
  rfl

/-! ### Examples -/

example : parseTime none (lit "08:05") = some (8, some 5) := by decide +kernel
example : parseTime none (lit "*:30") = some (-2, some 30) := by decide +kernel
example : parseTime none (lit "1 2:30") = some (1, some 30) := by decide +kernel
example : parseTime none (lit "24:00") = none ∧ parseTime none (lit "12") = none ∧ parseTime none (lit "1:*") = none := by
  decide +kernel
example : Digits (lit "08") ∧ valueIn 10 (lit "08") < 24 := by
  refine ⟨⟨by decide, by decide⟩, by decide⟩

end Verif.TaskDef
