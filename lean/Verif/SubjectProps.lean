import Verif.Subject
import Verif.NzbParseProps
/-! C77, C78: names and hashes for the files of an nzb-file. -/
namespace Verif.Subject
open CStr

/-! ### Specification -/

/-- Only digits. -/
def Digits (l : Bytes) : Prop := ∀ c ∈ l, isDigit c = true

/-- The usual end of a subject: the number of the part and of all parts. -/
def Suffix (x : Bytes) : Prop := ∃ a b, Digits a ∧ Digits b ∧ x = lit " yEnc (" ++ a ++ [47] ++ b ++ [41]

/-- The words of a text: what is between blanks. -/
inductive Words : Bytes → List Bytes → Prop
  | nil : Words [] []
  | blank {t ws} : Words t ws → Words (32 :: t) ws
  | last {x} : x ≠ [] → 32 ∉ x → Words x [x]
  | word {x t ws} : x ≠ [] → 32 ∉ x → Words t ws → Words (x ++ 32 :: t) (x :: ws)

/-- There is something after the first dot. -/
def Extension (x : Bytes) : Prop := ∃ a b, x = a ++ 46 :: b ∧ 46 ∉ a ∧ b ≠ []

/-- The name among some words: the last one with an extension, otherwise the last one. -/
def Chosen (ws : List Bytes) (name : Bytes) : Prop :=
  (∃ a b, ws = a ++ [name] ++ b ∧ Extension name ∧ ∀ x ∈ b, ¬ Extension x) ∨ ((∀ x ∈ ws, ¬ Extension x) ∧ ∃ a, ws = a ++ [name])

/-- Subjects with which the program reads before the beginning of the buffer. -/
def Short (t : Bytes) : Prop := t = [] ∨ t = [41] ∨ ∃ d, Digits d ∧ t = 47 :: d ++ [41]

/-! ### The suffix -/

theorem skipDigits_split : ∀ (r : Bytes), ∃ d, Digits d ∧ r = d ++ skipDigits r
  | [] => ⟨[], (fun c h => nomatch h), rfl⟩
  | [c] => ⟨[], (fun c h => nomatch h), rfl⟩
  | c :: e :: r => by
    rw [skipDigits]
    split
    · rename_i h
      obtain ⟨d, h1, h2⟩ := skipDigits_split (e :: r)
      refine ⟨c :: d, ?_, by rw [List.cons_append, ← h2]⟩
      intro x hx
      rcases List.mem_cons.mp hx with rfl | hx
      · exact h
      · exact h1 x hx
    · exact ⟨[], (fun c h => nomatch h), rfl⟩

theorem skipDigits_ne : ∀ {r : Bytes}, r ≠ [] → skipDigits r ≠ []
  | [], h => absurd rfl h
  | [c], _ => List.cons_ne_nil _ _
  | c :: e :: r, _ => by
    rw [skipDigits]
    split
    · exact skipDigits_ne (List.cons_ne_nil _ _)
    · exact List.cons_ne_nil _ _

theorem skipDigits_skip : ∀ (d : Bytes) (c : UInt8) (x : Bytes), Digits d → isDigit c = false → skipDigits (d ++ c :: x) = c :: x
  | [], c, [], _, _ => rfl
  | [], c, e :: x, _, h => by
    rw [List.nil_append, skipDigits, if_neg (by rw [h]; exact Bool.false_ne_true)]
  | [b], c, x, hd, h => by
    rw [List.cons_append, List.nil_append, skipDigits, if_pos (hd b List.mem_cons_self)]
    exact skipDigits_skip [] c x (fun _ h => nomatch h) h
  | b :: e :: d, c, x, hd, h => by
    rw [List.cons_append, List.cons_append, skipDigits, if_pos (hd b List.mem_cons_self)]
    exact skipDigits_skip (e :: d) c x (fun y hy => hd y (List.mem_cons_of_mem _ hy)) h

theorem digits_reverse {d : Bytes} (h : Digits d) : Digits d.reverse := fun c hc => h c (List.mem_reverse.mp hc)

theorem stripMore_some {t r t' : Bytes} (h : stripMore t r = some t') :
    t' = t ∨ (t' ≠ [] ∧ ∃ a, Digits a ∧ r.reverse = t' ++ lit " yEnc (" ++ a) := by
  cases r with
  | nil => exact nomatch h
  | cons c r =>
    rw [stripMore] at h
    split at h
    · rename_i hc
      injection h with h
      subst h
      right
      obtain ⟨d, h1, h2⟩ := skipDigits_split (c :: r)
      refine ⟨?_, d.reverse, digits_reverse h1, ?_⟩
      · rw [ne_eq, List.reverse_eq_nil_iff, List.drop_eq_nil_iff]
        omega
      · conv => lhs; rw [h2]
        rw [List.reverse_append]
        congr 1
        have := List.take_append_drop 7 (skipDigits (c :: r))
        rw [hc.2] at this
        conv => lhs; rw [← this]
        rw [List.reverse_append, List.reverse_reverse]
    · injection h with h
      exact Or.inl h.symm
    · exact nofun

theorem strip_some {t t' : Bytes} (h : strip t = some t') : t' = t ∨ (t' ≠ [] ∧ ∃ x, Suffix x ∧ t = t' ++ x) := by
  unfold strip at h
  split at h
  · exact nomatch h
  · rename_i c r hr
    split at h
    · rename_i hc
      split at h
      · exact nomatch h
      · split at h
        · rename_i r2 h2
          rcases stripMore_some h with h | ⟨h3, a, h4, h5⟩
          · exact Or.inl h
          · right
            refine ⟨h3, ?_⟩
            obtain ⟨d, h6, h7⟩ := skipDigits_split r
            refine ⟨_, ⟨a, d.reverse, h4, digits_reverse h6, rfl⟩, ?_⟩
            have : t = (c :: r).reverse := by rw [← hr, List.reverse_reverse]
            rw [this, hc, h7, h2]
            simp only [List.reverse_cons, List.reverse_append, h5]
            simp
        · injection h with h
          exact Or.inl h.symm
    · injection h with h
      exact Or.inl h.symm

theorem strip_none {t : Bytes} : strip t = none ↔ Short t := by
  constructor
  · intro h
    unfold strip at h
    split at h
    · rename_i hr
      exact Or.inl (List.reverse_eq_nil_iff.mp hr)
    · rename_i c r hr
      have ht : t = (c :: r).reverse := by rw [← hr, List.reverse_reverse]
      split at h
      · rename_i hc
        split at h
        · rename_i hn
          right; left
          rw [ht, hc, hn]
          rfl
        · split at h
          · rename_i r2 h2
            cases r2 with
            | cons c2 r2 =>
              rw [stripMore] at h
              · split at h <;> exact nomatch h
              · exact nofun
            | nil =>
              right; right
              obtain ⟨d, h6, h7⟩ := skipDigits_split r
              refine ⟨d.reverse, digits_reverse h6, ?_⟩
              rw [ht, hc, h7, h2]
              simp
          · exact nomatch h
      · exact nomatch h
  · rintro (rfl | rfl | ⟨d, hd, rfl⟩)
    · rfl
    · rfl
    · unfold strip
      have e : (47 :: d ++ [41]).reverse = 41 :: (d.reverse ++ [47]) := by simp
      rw [e]
      dsimp only
      rw [if_pos rfl, if_neg (by simp), skipDigits_skip d.reverse 47 [] (digits_reverse hd) (by decide)]
      rfl

/-- **C77.** The suffix with the numbers of parts does not belong to the name. -/
theorem strip_suffix {t x : Bytes} (ht : t ≠ []) (hx : Suffix x) : strip (t ++ x) = some t := by
  obtain ⟨a, b, ha, hb, rfl⟩ := hx
  unfold strip
  have e : (t ++ (lit " yEnc (" ++ a ++ [47] ++ b ++ [41])).reverse = 41 :: (b.reverse ++ 47 :: (a.reverse ++ ((lit " yEnc (").reverse ++ t.reverse))) := by
    simp
  rw [e]
  dsimp only
  rw [if_pos rfl, if_neg (by simp), skipDigits_skip b.reverse 47 _ (digits_reverse hb) (by decide)]
  have e2 : skipDigits (a.reverse ++ ((lit " yEnc (").reverse ++ t.reverse)) = (lit " yEnc (").reverse ++ t.reverse := by
    have h7 : (lit " yEnc (").reverse = 40 :: (lit " yEnc ").reverse := by decide
    rw [h7, List.cons_append, skipDigits_skip a.reverse 40 _ (digits_reverse ha) (by decide)]
  have hl : ((lit " yEnc (").reverse).length = 7 := by decide
  have hne : a.reverse ++ ((lit " yEnc (").reverse ++ t.reverse) ≠ [] := by
    intro h
    have := congrArg List.length h
    simp only [List.length_append, hl, List.length_nil] at this
    omega
  show stripMore _ _ = _
  rw [stripMore]
  · rw [e2, if_pos, List.drop_left' hl, List.reverse_reverse]
    refine ⟨?_, List.take_left' hl⟩
    have := List.length_pos_iff.mpr ht
    rw [List.length_append, hl, List.length_reverse]
    omega
  · exact hne

/-! ### The name in quotation marks -/

theorem takeWhile_until (r z : Bytes) (q : UInt8) (h : q ∉ r) :
    (r ++ q :: z).takeWhile (fun c => c != q) = r ∧ (r ++ q :: z).dropWhile (fun c => c != q) = q :: z := by
  induction r with
  | nil => simp
  | cons c r ih =>
    have hc : (c != q) = true := by
      rw [bne_iff_ne]
      intro e
      exact h (by rw [e]; exact List.mem_cons_self)
    obtain ⟨h1, h2⟩ := ih (fun hm => h (List.mem_cons_of_mem _ hm))
    rw [List.cons_append, List.takeWhile_cons, List.dropWhile_cons, hc]
    exact ⟨by rw [if_pos rfl, h1], by rw [if_pos rfl, h2]⟩

theorem dropWhile_all (r : Bytes) (q : UInt8) (h : q ∉ r) : r.dropWhile (fun c => c != q) = [] := by
  induction r with
  | nil => rfl
  | cons c r ih =>
    have hc : (c != q) = true := by
      rw [bne_iff_ne]
      intro e
      exact h (by rw [e]; exact List.mem_cons_self)
    rw [List.dropWhile_cons, hc, if_pos rfl, ih (fun hm => h (List.mem_cons_of_mem _ hm))]

theorem quote_not_suffix {x : Bytes} (h : Suffix x) : 34 ∉ x := by
  obtain ⟨a, b, ha, hb, rfl⟩ := h
  have hd : ∀ {d : Bytes}, Digits d → 34 ∉ d := fun hd hm => by have := hd 34 hm; exact absurd this (by decide)
  simp only [List.mem_append, not_or]
  exact ⟨⟨⟨⟨by decide, hd ha⟩, by decide⟩, hd hb⟩, by decide⟩

/-- The removed suffix does not reach into a text which ends with a quotation mark. -/
theorem strip_keeps {a post : Bytes} : ∃ post', strip (a ++ 34 :: post) = some (a ++ 34 :: post') ∧ ∃ x, post = post' ++ x := by
  cases h : strip (a ++ 34 :: post) with
  | none =>
    have hq : 34 ∈ a ++ 34 :: post := by simp
    rcases strip_none.mp h with h | h | ⟨d, hd, h⟩
    · exact nomatch (List.append_eq_nil_iff.mp h).2
    · rw [h] at hq; exact absurd hq (by decide)
    · rw [h] at hq
      simp only [List.cons_append, List.mem_cons, List.mem_append, List.not_mem_nil, or_false] at hq
      rcases hq with h | h | h
      · exact absurd h (by decide)
      · exact absurd (hd 34 h) (by decide)
      · exact absurd h (by decide)
  | some t =>
    rcases strip_some h with rfl | ⟨-, x, hx, e⟩
    · exact ⟨post, rfl, [], by simp⟩
    · have e' : (a ++ [34]) ++ post = t ++ x := by rw [← e]; simp
      rcases List.append_eq_append_iff.mp e' with ⟨y, h1, h2⟩ | ⟨y, h1, h2⟩
      · refine ⟨y, ?_, x, h2⟩
        rw [h1]
        simp
      · cases y with
        | nil =>
          rw [List.append_nil] at h1
          refine ⟨[], ?_, post, rfl⟩
          rw [← h1]
        | cons c y =>
          exfalso
          apply quote_not_suffix hx
          rw [h2]
          have := congrArg List.getLast? h1
          rw [List.getLast?_append, List.getLast?_append] at this
          simp only [List.getLast?_singleton, Option.some_or] at this
          cases hg : (c :: y).getLast? with
          | none => rw [List.getLast?_eq_none_iff] at hg; exact nomatch hg
          | some z =>
            rw [hg, Option.some_or] at this
            injection this with this
            exact List.mem_append_left _ (by rw [this]; exact List.mem_of_getLast? hg)

theorem quoted_found {pre name post : Bytes} (h1 : 34 ∉ pre) (h2 : 34 ∉ name) (h3 : ∃ c r, name = c :: r ∧ 46 ∈ r) :
    quoted (pre ++ 34 :: (name ++ 34 :: post)) = some (some name) := by
  obtain ⟨c, r, rfl, hr⟩ := h3
  have hr2 : 34 ∉ r := fun h => h2 (List.mem_cons_of_mem _ h)
  unfold quoted
  rw [(takeWhile_until pre _ 34 h1).2, List.cons_append]
  dsimp only
  rw [(takeWhile_until r post 34 hr2).1, if_pos ⟨by simp, hr⟩]

/-- **C77.** If the subject has a text in quotation marks, which has a dot (not only as the first character), this text is the name of the
file. The subject is looked at up to 1023 bytes. -/
theorem name_in_quotes {pre name post : Bytes} (h1 : 34 ∉ pre) (h2 : 34 ∉ name) (h3 : ∃ c r, name = c :: r ∧ 46 ∈ r)
    (h4 : (pre ++ [34] ++ name ++ [34]).length ≤ 1023) :
    parseSubject true (pre ++ [34] ++ name ++ [34] ++ post) = some name := by
  unfold parseSubject
  have e : (pre ++ [34] ++ name ++ [34] ++ post).take 1023 = (pre ++ 34 :: name) ++ 34 :: post.take (1023 - (pre ++ [34] ++ name ++ [34]).length) := by
    rw [List.take_append, List.take_of_length_le h4]
    simp
  rw [e]
  obtain ⟨post', h5, -⟩ := strip_keeps (a := pre ++ 34 :: name) (post := post.take (1023 - (pre ++ [34] ++ name ++ [34]).length))
  rw [h5]
  dsimp only
  rw [if_pos rfl, show (pre ++ 34 :: name) ++ 34 :: post' = pre ++ 34 :: (name ++ 34 :: post') by simp, quoted_found h1 h2 h3]

example : parseSubject true (lit "[1/2] \"a b.rar\" yEnc (1/3)") = some (lit "a b.rar") := by decide +kernel

/-! ### Words -/

theorem toks_word : ∀ (x : Bytes) (n : Nat) (acc t : Bytes), 32 ∉ x → 34 ∉ x → toks (n + x.length) false acc (x ++ t) = toks n false (acc ++ x) t := by
  intro x
  induction x with
  | nil => intro n acc t _ _; rw [List.append_nil]; rfl
  | cons c x ih =>
    intro n acc t h1 h2
    rw [List.cons_append, List.length_cons, ← Nat.add_assoc, toks, if_neg, ih n (acc ++ [c]) t (fun h => h1 (List.mem_cons_of_mem _ h))
      (fun h => h2 (List.mem_cons_of_mem _ h)), List.append_assoc]
    · rfl
    · rintro (h | ⟨-, h⟩)
      · exact h2 (by rw [h]; exact List.mem_cons_self)
      · exact h1 (by rw [h]; exact List.mem_cons_self)

theorem toks_blank {n : Nat} {acc t : Bytes} (h : 34 ∉ t) : toks (n + 1) false acc (32 :: t) = emit acc ++ toks n false [] t := by
  rw [toks, if_pos (Or.inr ⟨rfl, rfl⟩), if_pos (Or.inl (by decide))]
  congr 1
  split
  · exact absurd List.mem_cons_self h
  · rfl

theorem toks_words {t : Bytes} {ws : List Bytes} (h : Words t ws) : 34 ∉ t → ∀ n, t.length < n → toks n false [] t = ws := by
  induction h with
  | nil =>
    intro _ n hn
    cases n with
    | zero => omega
    | succ n => rfl
  | blank _ ih =>
    intro hq n hn
    cases n with
    | zero => omega
    | succ n =>
      have hq' := fun hm => hq (List.mem_cons_of_mem _ hm)
      rw [toks_blank hq', ih hq' n (by rw [List.length_cons] at hn; omega)]
      rfl
  | @last x h1 h2 =>
    intro hq n hn
    obtain ⟨m, rfl⟩ : ∃ m, n = (m + 1) + x.length := ⟨n - x.length - 1, by omega⟩
    have := toks_word x (m + 1) [] [] h2 hq
    rw [List.append_nil, List.nil_append] at this
    rw [this, toks, emit, if_neg h1]
  | @word x t ws h1 h2 _ ih =>
    intro hq n hn
    rw [List.length_append, List.length_cons] at hn
    obtain ⟨m, rfl⟩ : ∃ m, n = (m + 1) + x.length := ⟨n - x.length - 1, by omega⟩
    have hx : 34 ∉ x := fun hm => hq (List.mem_append_left _ hm)
    have ht : 34 ∉ t := fun hm => hq (List.mem_append_right _ (List.mem_cons_of_mem _ hm))
    rw [toks_word x (m + 1) [] _ h2 hx, List.nil_append, toks_blank ht, ih ht m (by omega), emit, if_neg h1]
    rfl

theorem hasExt_iff (x : Bytes) : hasExt x = true ↔ Extension x := by
  constructor
  · intro h
    unfold hasExt at h
    split at h
    · rename_i c d r hd
      have hs := List.takeWhile_append_dropWhile (p := fun c => c != 46) (l := x)
      rw [hd] at hs
      have hc : c = 46 := by
        have := List.head?_dropWhile_not (fun c => c != 46) x
        rw [hd] at this
        simpa using this
      refine ⟨x.takeWhile (fun c => c != 46), d :: r, by rw [hc] at hs; exact hs.symm, ?_, List.cons_ne_nil _ _⟩
      intro hm
      have := List.all_takeWhile (p := fun c => c != 46) (l := x)
      rw [List.all_eq_true] at this
      have := this 46 hm
      simp at this
    · exact nomatch h
  · rintro ⟨a, b, rfl, h1, h2⟩
    unfold hasExt
    rw [(takeWhile_until a b 46 h1).2]
    cases b with
    | nil => exact absurd rfl h2
    | cons c b => rfl

theorem best_chosen {ws : List Bytes} (h : ws ≠ []) : ∃ x, best ws = some x ∧ Chosen ws x := by
  unfold best
  cases hf : ws.reverse.find? hasExt with
  | some x =>
    refine ⟨x, rfl, Or.inl ?_⟩
    obtain ⟨h1, a, b, h2, h3⟩ := List.find?_eq_some_iff_append.mp hf
    refine ⟨b.reverse, a.reverse, ?_, (hasExt_iff x).mp h1, ?_⟩
    · have := congrArg List.reverse h2
      rw [List.reverse_reverse] at this
      rw [this]
      simp
    · intro y hy hext
      have := h3 y (List.mem_reverse.mp hy)
      rw [(hasExt_iff y).mpr hext] at this
      exact nomatch this
  | none =>
    rw [Option.none_or]
    cases hl : ws.getLast? with
    | none => exact absurd (List.getLast?_eq_none_iff.mp hl) h
    | some x =>
      refine ⟨x, rfl, Or.inr ⟨?_, ?_⟩⟩
      · intro y hy hext
        have := List.find?_eq_none.mp hf y (List.mem_reverse.mpr hy)
        exact this ((hasExt_iff y).mpr hext)
      · exact List.getLast?_eq_some_iff.mp hl

theorem quoted_none {t : Bytes} (h : 34 ∉ t) : quoted t = some none := by
  unfold quoted
  rw [dropWhile_all t 34 h]

/-- **C77.** Without quotation marks the name is chosen among the words of the subject, without the suffix with the numbers of parts. -/
theorem name_in_words {t x : Bytes} {ws : List Bytes} (q : Bool) (h1 : 34 ∉ t) (h2 : Words t ws) (h3 : ws ≠ []) (h4 : Suffix x)
    (h5 : (t ++ x).length ≤ 1023) : ∃ name, parseSubject q (t ++ x) = some name ∧ Chosen ws name := by
  have ht : t ≠ [] := by
    intro e
    subst e
    generalize ht : ([] : Bytes) = t at h2
    cases h2 with
    | nil => exact h3 rfl
    | blank => exact nomatch ht
    | last h => exact h ht.symm
    | word => exact nomatch (List.append_eq_nil_iff.mp ht.symm).2
  have hx : x ≠ [] := by
    obtain ⟨a, b, -, -, rfl⟩ := h4
    simp
  have hlen : t.length < 1023 := by
    have := List.length_pos_iff.mpr hx
    rw [List.length_append] at h5
    omega
  obtain ⟨name, h6, h7⟩ := best_chosen h3
  refine ⟨name, ?_, h7⟩
  unfold parseSubject
  rw [List.take_of_length_le h5, strip_suffix ht h4]
  dsimp only
  have : (if q = true then quoted t else some none) = some none := by
    cases q with
    | true => rw [if_pos rfl, quoted_none h1]
    | false => rfl
  rw [this]
  dsimp only
  rw [tokens, if_pos hlen, toks_words h2 h1 _ (Nat.lt_succ_self _)]
  dsimp only
  rw [h6]
  rfl

/-- Every text has words. -/
theorem words_exist : ∀ (n : Nat) (t : Bytes), t.length < n → ∃ ws, Words t ws := by
  intro n
  induction n with
  | zero => intro t h; omega
  | succ n ih =>
    intro t h
    by_cases hb : 32 ∈ t
    · obtain ⟨a, b, e, ha⟩ : ∃ a b, t = a ++ 32 :: b ∧ 32 ∉ a := by
        clear h ih
        induction t with
        | nil => exact nomatch hb
        | cons c t ih =>
          by_cases hc : c = 32
          · exact ⟨[], t, by rw [hc]; rfl, List.not_mem_nil⟩
          · rcases List.mem_cons.mp hb with h | h
            · exact absurd h.symm hc
            · obtain ⟨a, b, e, ha⟩ := ih h
              refine ⟨c :: a, b, by rw [e]; rfl, ?_⟩
              intro hm
              rcases List.mem_cons.mp hm with h | h
              · exact hc h.symm
              · exact ha h
      obtain ⟨ws, hw⟩ := ih b (by rw [e, List.length_append, List.length_cons] at h; omega)
      rw [e]
      by_cases hn : a = []
      · exact ⟨ws, by rw [hn]; exact .blank hw⟩
      · exact ⟨_, .word hn ha hw⟩
    · by_cases hn : t = []
      · exact ⟨[], by rw [hn]; exact .nil⟩
      · exact ⟨_, .last hn hb⟩

example : parseSubject true (lit "some a.b c.rar of it yEnc (1/3)") = some (lit "c.rar") := by decide +kernel
example : Words (lit "some a.b c.rar of it") [lit "some", lit "a.b", lit "c.rar", lit "of", lit "it"] :=
  .word (x := lit "some") (by decide) (by decide) (.word (x := lit "a.b") (by decide) (by decide) (.word (x := lit "c.rar") (by decide) (by decide)
    (.word (x := lit "of") (by decide) (by decide) (.last (x := lit "it") (by decide) (by decide)))))

/-! ### Names are parts of subjects -/

theorem toks_infix : ∀ (n : Nat) (q : Bool) (acc t : Bytes), ∀ x ∈ toks n q acc t, x ≠ [] ∧ x <:+: acc ++ t := by
  intro n
  have hemit : ∀ {acc x : Bytes} (t : Bytes), x ∈ emit acc → x ≠ [] ∧ x <:+: acc ++ t := by
    intro acc x t hx
    unfold emit at hx
    split at hx
    · exact nomatch hx
    · rename_i hn
      rw [List.mem_singleton] at hx
      subst hx
      exact ⟨hn, (List.prefix_append _ _).isInfix⟩
  induction n with
  | zero => intro q acc t x hx; exact nomatch hx
  | succ n ih =>
    intro q acc t x hx
    cases t with
    | nil => exact hemit [] hx
    | cons c r =>
      have hr : ∀ {y : Bytes}, y <:+: r → y <:+: acc ++ c :: r := by
        rintro y ⟨u, v, e⟩
        exact ⟨acc ++ c :: u, v, by rw [← e]; simp⟩
      rw [toks] at hx
      split at hx
      · rcases List.mem_append.mp hx with hx | hx
        · exact hemit _ hx
        · have rest : x ∈ toks n false [] r → x ≠ [] ∧ x <:+: acc ++ c :: r := by
            intro h
            obtain ⟨h1, h2⟩ := ih false [] r x h
            exact ⟨h1, hr h2⟩
          split at hx
          · rename_i s hs
            split at hx
            · obtain ⟨h1, h2⟩ := ih _ _ _ x hx
              rw [List.takeWhile_append_dropWhile] at h2
              refine ⟨h1, ?_⟩
              have hsr : s <:+: r := by
                split at hs
                · rw [hs]; exact (List.suffix_cons _ _).isInfix
                · injection hs with _ hs
                  rw [hs]
                  exact List.infix_refl _
              exact hr (h2.trans hsr)
            · exact rest hx
          · exact rest hx
      · obtain ⟨h1, h2⟩ := ih _ _ _ x hx
        refine ⟨h1, ?_⟩
        rwa [List.append_assoc] at h2

theorem quoted_infix {t x : Bytes} (h : quoted t = some (some x)) : x ≠ [] ∧ x <:+: t := by
  unfold quoted at h
  split at h
  · exact nomatch h
  · split at h <;> exact nomatch h
  · rename_i a c r hd
    split at h
    · injection h with h
      injection h with h
      subst h
      refine ⟨List.cons_ne_nil _ _, ?_⟩
      have h1 := List.takeWhile_append_dropWhile (p := fun c => c != 34) (l := t)
      have h2 := List.takeWhile_append_dropWhile (p := fun c => c != 34) (l := r)
      refine ⟨t.takeWhile (fun c => c != 34) ++ [a], r.dropWhile (fun c => c != 34), ?_⟩
      conv => rhs; rw [← h1, hd, ← h2]
      simp
    · exact nomatch h

/-- **C77.** Whatever the subject is: the name is a part of it and not empty. -/
theorem name_is_part {q : Bool} {s x : Bytes} (h : parseSubject q s = some x) : x ≠ [] ∧ x <:+: s := by
  unfold parseSubject at h
  split at h
  · exact nomatch h
  · rename_i t ht
    have hts : t <:+: s ∧ s ≠ [] := by
      have hp : t <+: s.take 1023 := by
        rcases strip_some ht with rfl | ⟨-, y, -, e⟩
        · exact List.prefix_refl _
        · rw [e]; exact List.prefix_append _ _
      refine ⟨(hp.trans (List.take_prefix _ _)).isInfix, ?_⟩
      intro e
      subst e
      exact nomatch ht
    split at h
    · exact nomatch h
    · rename_i name hq
      injection h with h
      subst h
      split at hq
      · obtain ⟨h1, h2⟩ := quoted_infix hq
        exact ⟨h1, h2.trans hts.1⟩
      · exact nomatch hq
    · split at h
      · exact nomatch h
      · rename_i ts hk
        injection h with h
        unfold tokens at hk
        split at hk
        · injection hk with hk
          subst hk
          cases hb : best (toks (t.length + 1) false [] t) with
          | none =>
            rw [hb] at h
            rw [← h]
            exact ⟨hts.2, List.infix_refl _⟩
          | some y =>
            rw [hb] at h
            rw [← h]
            have hm : y ∈ toks (t.length + 1) false [] t := by
              unfold best at hb
              cases hf : (toks (t.length + 1) false [] t).reverse.find? hasExt with
              | some z =>
                rw [hf] at hb
                injection hb with hb
                subst hb
                exact List.mem_reverse.mp (List.mem_of_find?_eq_some hf)
              | none =>
                rw [hf] at hb
                exact List.mem_of_getLast? hb
            obtain ⟨h1, h2⟩ := toks_infix _ _ _ _ y hm
            exact ⟨h1, h2.trans hts.1⟩
        · exact nomatch hk

/-! ### Reads outside of the buffer -/

/-- **C77 (partial).** Subjects of less than 1023 bytes are read within the buffer, if they are not `Short`. -/
theorem subject_safe_partial {q : Bool} {s : Bytes} (h1 : s.length < 1023) (h2 : ¬ Short s) : parseSubject q s ≠ none := by
  unfold parseSubject
  rw [List.take_of_length_le (by omega)]
  cases ht : strip s with
  | none => exact absurd (strip_none.mp ht) h2
  | some t =>
    have hl : t.length < 1023 := by
      rcases strip_some ht with rfl | ⟨-, y, -, e⟩
      · exact h1
      · rw [e, List.length_append] at h1
        omega
    dsimp only
    have hq : ∃ o, (if q = true then quoted t else some none) = some o := by
      split
      · unfold quoted
        split
        · exact ⟨_, rfl⟩
        · rw [if_pos hl]; exact ⟨_, rfl⟩
        · split <;> exact ⟨_, rfl⟩
      · exact ⟨_, rfl⟩
    obtain ⟨o, hq⟩ := hq
    rw [hq]
    cases o with
    | some x => exact nofun
    | none =>
      dsimp only
      rw [tokens, if_pos hl]
      exact nofun

example : ¬ Short (lit "a.rar (1/3)") := by
  rintro (h | h | ⟨d, -, h⟩)
  · exact absurd h (by decide)
  · exact absurd h (by decide)
  · injection h with h
    exact absurd h (by decide)

/-- **C77, violated.** For an empty subject, for `)` and for `/`, digits and `)` the byte before the buffer is read. -/
theorem short_subject_read_outside {q : Bool} {s : Bytes} (h : Short s) (hl : s.length ≤ 1023) : parseSubject q s = none := by
  unfold parseSubject
  rw [List.take_of_length_le hl, strip_none.mpr h]

/-- **C77, violated.** For subjects of 1023 or more bytes without quotation marks the byte after the buffer is read (if the suffix with the
numbers of parts is not within the first 1023 bytes). -/
theorem long_subject_read_outside {q : Bool} {s : Bytes} (h1 : 1023 ≤ s.length) (h2 : 34 ∉ s) (h3 : (s.take 1023).getLast? ≠ some 41) :
    parseSubject q s = none := by
  have hlen : (s.take 1023).length = 1023 := by rw [List.length_take]; omega
  have hs : strip (s.take 1023) = some (s.take 1023) := by
    unfold strip
    cases hr : (s.take 1023).reverse with
    | nil =>
      rw [List.reverse_eq_nil_iff] at hr
      rw [hr] at hlen
      exact nomatch hlen
    | cons c r =>
      dsimp only
      rw [if_neg]
      intro e
      apply h3
      have : s.take 1023 = (c :: r).reverse := by rw [← hr, List.reverse_reverse]
      rw [this, e]
      simp
  unfold parseSubject
  rw [hs]
  dsimp only
  have : (if q = true then quoted (s.take 1023) else some none) = some none := by
    cases q with
    | true => rw [if_pos rfl, quoted_none (fun h => h2 (List.mem_of_mem_take h))]
    | false => rfl
  rw [this]
  dsimp only
  rw [tokens, if_neg (by omega)]

example : parseSubject true (List.replicate 2000 97) = none :=
  long_subject_read_outside (by rw [List.length_replicate]; decide) (fun h => absurd (List.eq_of_mem_replicate h) (by decide))
    (by rw [List.take_replicate, List.getLast?_replicate]; decide)

/-! ### Names of all files -/

theorem parseAll_length {q : Bool} : ∀ {l names : List Bytes}, parseAll q l = some names → names.length = l.length
  | [], names, h => by injection h with h; subst h; rfl
  | s :: l, names, h => by
    rw [parseAll] at h
    split at h
    · exact nomatch h
    · split at h
      · exact nomatch h
      · rename_i xs hx
        injection h with h
        subst h
        rw [List.length_cons, List.length_cons, parseAll_length hx]

theorem others_pair {x y z : Bytes × Bytes} {l : List (Bytes × Bytes)} (h : [y, z].Sublist l) (hy : y.1 = x.1 ∧ y.2 ≠ x.2)
    (hz : z.1 = x.1 ∧ z.2 ≠ x.2) : 2 ≤ others x l := by
  unfold others
  have := (h.filter (fun y => decide (y.1 = x.1 ∧ y.2 ≠ x.2))).length_le
  rw [List.filter_cons_of_pos (by exact decide_eq_true hy), List.filter_cons_of_pos (by exact decide_eq_true hz)] at this
  exact this

theorem others_one {x y : Bytes × Bytes} {l : List (Bytes × Bytes)} (h : [y].Sublist l) (hy : y.1 = x.1 ∧ y.2 ≠ x.2) : 1 ≤ others x l := by
  unfold others
  have := (h.filter (fun y => decide (y.1 = x.1 ∧ y.2 ≠ x.2))).length_le
  rw [List.filter_cons_of_pos (by exact decide_eq_true hy)] at this
  exact this

theorem hasDup_false {n : Nat} : ∀ {l : List (Bytes × Bytes)}, hasDup n l = false →
    (∀ x y z, [x, y, z].Sublist l → y.1 = x.1 ∧ y.2 ≠ x.2 → z.1 = x.1 ∧ z.2 ≠ x.2 → False) ∧
    (n = 2 → ∀ x y, [x, y].Sublist l → y.1 = x.1 ∧ y.2 ≠ x.2 → False)
  | [], _ => ⟨fun x y z h => (nomatch h), fun _ x y h => nomatch h⟩
  | a :: l, h => by
    rw [hasDup] at h
    split at h
    · exact nomatch h
    · rename_i hc
      obtain ⟨h1, h2⟩ := hasDup_false h
      constructor
      · intro x y z hs hy hz
        cases hs with
        | cons _ hs => exact h1 x y z hs hy hz
        | cons_cons _ hs =>
          have := others_pair hs hy hz
          omega
      · intro hn x y hs hy
        cases hs with
        | cons _ hs => exact h2 hn x y hs hy
        | cons_cons _ hs =>
          have := others_one hs hy
          omega

/-- **C77.** If the subjects of the files are different, no three files get the same name, and of two files both get different names. -/
theorem names_of_files {subjects names : List Bytes} {many : Bool} (hd : subjects.Nodup) (h : build subjects = some (names, many)) :
    names.length = subjects.length ∧ (∀ x, names.count x ≤ 2) ∧ (subjects.length = 2 → names.Nodup) := by
  have key : ∀ {q : Bool} {ns : List Bytes}, parseAll q subjects = some ns → hasDup subjects.length (ns.zip subjects) = false →
      ns.length = subjects.length ∧ (∀ x, ns.count x ≤ 2) ∧ (subjects.length = 2 → ns.Nodup) := by
    intro q ns hp hh
    have hl := parseAll_length hp
    obtain ⟨h1, h2⟩ := hasDup_false hh
    have hf : (ns.zip subjects).map Prod.fst = ns := List.map_fst_zip (by omega)
    have hs : (ns.zip subjects).map Prod.snd = subjects := List.map_snd_zip (by omega)
    have hsn : ∀ {l'}, List.Sublist l' (ns.zip subjects) → (l'.map Prod.snd).Nodup := by
      intro l' hl'
      have := hl'.map Prod.snd
      rw [hs] at this
      exact this.nodup hd
    refine ⟨hl, ?_, ?_⟩
    · intro x
      rcases Nat.lt_or_ge 2 (ns.count x) with hc | hc
      · exfalso
        have : (List.replicate 3 x).Sublist ns := List.replicate_sublist_iff.mpr hc
        rw [← hf] at this
        obtain ⟨l', hl', e⟩ := List.sublist_map_iff.mp this
        have hlen := congrArg List.length e
        rw [List.length_map, List.length_replicate] at hlen
        match l', hlen with
        | [a, b, c], _ =>
          simp only [List.replicate, List.map_cons, List.map_nil, List.cons.injEq, and_true] at e
          have hn := hsn hl'
          simp only [List.map_cons, List.map_nil, List.nodup_cons, List.mem_cons, List.not_mem_nil, or_false, not_or] at hn
          exact h1 a b c hl' ⟨by rw [← e.1, ← e.2.1], fun e => hn.1.1 e.symm⟩ ⟨by rw [← e.1, ← e.2.2], fun e => hn.1.2 e.symm⟩
      · exact hc
    · intro h2'
      rw [h2'] at hl
      match ns, hl with
      | [a, b], _ =>
        match hsub : subjects, h2' with
        | [s, t], _ =>
          simp only [List.nodup_cons, List.mem_cons, List.not_mem_nil, or_false, not_false_eq_true, List.nodup_nil, and_true] at hd ⊢
          intro e
          exact h2 rfl (a, s) (b, t) (List.Sublist.refl _) ⟨e.symm, fun e => hd e.symm⟩
  unfold build at h
  split at h
  · exact nomatch h
  · rename_i n1 hp1
    split at h
    · split at h
      · exact nomatch h
      · rename_i n2 hp2
        split at h
        · injection h with h
          injection h with h1 h2
          subst h1
          refine ⟨rfl, ?_, fun _ => hd⟩
          intro x
          have := List.nodup_iff_count.mp hd x
          omega
        · rename_i hh
          injection h with h
          injection h with h1 h2
          subst h1
          exact key hp2 (by rwa [Bool.not_eq_true] at hh)
    · rename_i hh
      injection h with h
      injection h with h1 h2
      subst h1
      exact key hp1 (by rwa [Bool.not_eq_true] at hh)

example : build [lit "\"a.b\" 1", lit "\"a.b\" 2"] = some ([lit "1", lit "2"], false) ∨
    build [lit "\"a.b\" 1", lit "\"a.b\" 2"] = some ([lit "\"a.b\" 1", lit "\"a.b\" 2"], true) := by decide +kernel

/-! ### Hashes -/

/-- `sort` sorts files by name, the greatest first. -/
def Sorts (sort : List HFile → List HFile) : Prop :=
  ∀ l, (sort l).Perm l ∧ (sort l).Pairwise (fun a b => greater b.name a.name = false)

theorem greater_total : ∀ {a b : Bytes}, greater a b = false → greater b a = false → a = b
  | [], [], _, _ => rfl
  | [], _ :: _, _, h => by simp [greater] at h
  | _ :: _, [], h, _ => by simp [greater] at h
  | a :: x, b :: y, h1, h2 => by
    rw [greater] at h1 h2
    by_cases hab : a = b
    · rw [if_pos hab] at h1
      rw [if_pos hab.symm] at h2
      rw [hab, greater_total h1 h2]
    · rw [if_neg hab] at h1
      rw [if_neg (fun e => hab e.symm)] at h2
      simp only [decide_eq_false_iff_not] at h1 h2
      exact absurd (UInt8.toNat.inj (by omega)) hab

theorem sorted_eq {s1 s2 : List HFile → List HFile} (h1 : Sorts s1) (h2 : Sorts s2) {l l' : List HFile} (hp : l.Perm l')
    (hd : (l.map HFile.name).Nodup) : s1 l = s2 l' := by
  have hperm : (s1 l).Perm (s2 l') := ((h1 l).1.trans hp).trans (h2 l').1.symm
  have hnames : ∀ a b, a ∈ l → b ∈ l → a.name = b.name → a = b := by
    clear hperm hp
    induction l with
    | nil => intro a b h; exact nomatch h
    | cons c l ih =>
      rw [List.map_cons, List.nodup_cons] at hd
      intro a b ha hb e
      rcases List.mem_cons.mp ha with rfl | ha' <;> rcases List.mem_cons.mp hb with rfl | hb'
      · rfl
      · exact absurd (by rw [e]; exact List.mem_map_of_mem hb') hd.1
      · exact absurd (by rw [← e]; exact List.mem_map_of_mem ha') hd.1
      · exact ih hd.2 a b ha' hb' e
  refine List.Perm.eq_of_pairwise (le := fun a b => greater b.name a.name = false) ?_ (h1 l).2 (h2 l').2 hperm
  intro a b ha hb hab hba
  exact hnames a b ((h1 l).1.mem_iff.mp ha) (hp.mem_iff.mpr ((h2 l').1.mem_iff.mp hb)) (greater_total hba hab)

/-- **C78 (partial).** The hashes which are used to find duplicates do not depend on the order of files in the nzb-file (if their names are
different), nor on the sorting algorithm. What is missing: files with the same name, see `same_name_order_matters`. -/
theorem hashes_any_order_partial {s1 s2 : List HFile → List HFile} (h1 : Sorts s1) (h2 : Sorts s2) (ignored : Bytes → Bool) {l l' : List HFile}
    (hp : l.Perm l') (hd : (l.map HFile.name).Nodup) : calcHashes s1 ignored l = calcHashes s2 ignored l' := by
  unfold calcHashes
  rw [sorted_eq h1 h2 hp hd]

/-- A file of an nzb-file for the hashes. -/
def hfile (name : Bytes) (f : NzbParse.File) : HFile := ⟨name, f.arts.map (fun a => a.id.getD [])⟩

/-- **C78.** They do not depend on the order of the segments either. -/
theorem hashes_any_segments {e e' : NzbParse.Entry} {f f' : NzbParse.File} (hd : (e.segs.map NzbParse.Seg.number).Nodup)
    (hp : e.segs.Perm e'.segs) (h : NzbParse.Describes e f) (h' : NzbParse.Describes e' f') (name : Bytes) : hfile name f = hfile name f' := by
  have := congrArg (List.map (fun x => x.2.2.getD [])) (NzbParse.order_of_segments hd hp h h').1
  rw [List.map_map, List.map_map] at this
  unfold hfile
  rw [HFile.mk.injEq]
  exact ⟨rfl, this⟩

/-- **C78.** Files which the user wants to ignore (option ParIgnoreExt) do not change the filtered hash, unless only few articles would be left. -/
theorem ignored_files {sort : List HFile → List HFile} (hs : Sorts sort) (ignored : Bytes → Bool) {l l' : List HFile}
    (hd : (l.map HFile.name).Nodup) (he : (l.filter (fun f => !ignored f.name)).Perm (l'.filter (fun f => !ignored f.name)))
    (h1 : l.length / 2 ≤ ((l.filter (fun f => !ignored f.name)).flatMap HFile.ids).length)
    (h2 : l'.length / 2 ≤ ((l'.filter (fun f => !ignored f.name)).flatMap HFile.ids).length) :
    (calcHashes sort ignored l).2 = (calcHashes sort ignored l').2 := by
  have hf : ∀ l : List HFile, (sort l).filter (fun f => !ignored f.name) |>.Perm (l.filter (fun f => !ignored f.name)) :=
    fun l => (hs l).1.filter _
  have heq : (sort l).filter (fun f => !ignored f.name) = (sort l').filter (fun f => !ignored f.name) := by
    have hperm := ((hf l).trans he).trans (hf l').symm
    have hnd : (((sort l).filter (fun f => !ignored f.name)).map HFile.name).Nodup := by
      refine List.Sublist.nodup (List.Sublist.map _ List.filter_sublist) ?_
      exact ((hs l).1.map HFile.name).nodup_iff.mpr hd
    have hinj : ∀ (m : List HFile), (m.map HFile.name).Nodup → ∀ a b, a ∈ m → b ∈ m → a.name = b.name → a = b := by
      intro m
      induction m with
      | nil => intro _ a b h; exact nomatch h
      | cons c m ih =>
        intro hd a b ha hb e
        rw [List.map_cons, List.nodup_cons] at hd
        rcases List.mem_cons.mp ha with rfl | ha' <;> rcases List.mem_cons.mp hb with rfl | hb'
        · rfl
        · exact absurd (by rw [e]; exact List.mem_map_of_mem hb') hd.1
        · exact absurd (by rw [← e]; exact List.mem_map_of_mem ha') hd.1
        · exact ih hd.2 a b ha' hb' e
    refine List.Perm.eq_of_pairwise (le := fun a b => greater b.name a.name = false) ?_ ((hs l).2.filter _) ((hs l').2.filter _) hperm
    intro a b ha hb hab hba
    exact hinj _ hnd a b ha (hperm.mem_iff.mpr hb) (greater_total hba hab)
  have hlen : ∀ l : List HFile, (((sort l).filter (fun f => !ignored f.name)).flatMap HFile.ids).length =
      ((l.filter (fun f => !ignored f.name)).flatMap HFile.ids).length := fun l => ((hf l).flatMap_right _).length_eq
  unfold calcHashes
  dsimp only
  rw [if_neg (by rw [hlen, (hs l).1.length_eq]; omega), if_neg (by rw [hlen, (hs l').1.length_eq]; omega), heq]

theorem greater_trans : ∀ {a b c : Bytes}, greater b a = false → greater c b = false → greater c a = false
  | a, b, [], _, _ => by cases a <;> rfl
  | a, [], c :: z, _, h2 => by simp [greater] at h2
  | [], b :: y, c :: z, h1, _ => by simp [greater] at h1
  | a :: x, b :: y, c :: z, h1, h2 => by
    rw [greater] at h1 h2 ⊢
    by_cases hab : b = a
    · subst hab
      rw [if_pos rfl] at h1
      by_cases hbc : c = b
      · rw [if_pos hbc] at h2 ⊢
        exact greater_trans h1 h2
      · rw [if_neg hbc] at h2 ⊢
        exact h2
    · rw [if_neg hab] at h1
      simp only [decide_eq_false_iff_not] at h1
      by_cases hbc : c = b
      · subst hbc
        rw [if_neg hab]
        exact decide_eq_false h1
      · rw [if_neg hbc] at h2
        simp only [decide_eq_false_iff_not] at h2
        have hne : c ≠ a := by
          intro e
          subst e
          exact hbc (UInt8.toNat.inj (by omega))
        rw [if_neg hne]
        exact decide_eq_false (by omega)

/-- A sorting algorithm. -/
def byName (l : List HFile) : List HFile := l.mergeSort (fun a b => !greater b.name a.name)

theorem byName_sorts : Sorts byName := by
  intro l
  refine ⟨List.mergeSort_perm _ _, ?_⟩
  have := List.pairwise_mergeSort (le := fun a b : HFile => !greater b.name a.name) ?_ ?_ l
  · exact this.imp (fun h => by simpa using h)
  · intro a b c hab hbc
    simp only [Bool.not_eq_true'] at *
    exact greater_trans hab hbc
  · intro a b
    simp only [Bool.or_eq_true, Bool.not_eq_true']
    cases h : greater b.name a.name with
    | false => exact Or.inl rfl
    | true =>
      right
      cases h' : greater a.name b.name with
      | false => rfl
      | true =>
        exfalso
        have asym : ∀ x y : Bytes, greater x y = true → greater y x = true → False := by
          intro x
          induction x with
          | nil => intro y h; exact nomatch h
          | cons c x ih =>
            intro y h h'
            cases y with
            | nil => exact nomatch h'
            | cons d y =>
              rw [greater] at h h'
              by_cases hcd : c = d
              · rw [if_pos hcd] at h
                rw [if_pos hcd.symm] at h'
                exact ih y h h'
              · rw [if_neg hcd] at h
                rw [if_neg (fun e => hcd e.symm)] at h'
                simp only [decide_eq_true_eq] at h h'
                omega
        exact asym _ _ h h'

def exampleFiles : List HFile := [⟨lit "a.rar", [lit "<1@x>", lit "<2@x>"]⟩, ⟨lit "b.rar", [lit "<3@x>"]⟩, ⟨lit "c.nfo", [lit "<4@x>"]⟩]

example : calcHashes byName (fun n => n == lit "c.nfo") exampleFiles = calcHashes byName (fun n => n == lit "c.nfo") exampleFiles.reverse :=
  hashes_any_order_partial byName_sorts byName_sorts _ (List.reverse_perm _).symm (by decide)

example : (calcHashes byName (fun n => n == lit "c.nfo") exampleFiles).2 = (calcHashes byName (fun n => n == lit "c.nfo") (exampleFiles.take 2)).2 :=
  ignored_files byName_sorts _ (by decide) (by decide +kernel) (by decide) (by decide)

/-- **C78, violated.** If two files have the same name (two are allowed), the hash can depend on their order. -/
theorem same_name_order_matters : ∃ l l' : List HFile, l.Perm l' ∧ ∃ s1 s2, Sorts s1 ∧ Sorts s2 ∧
    (calcHashes s1 (fun _ => false) l).1 ≠ (calcHashes s2 (fun _ => false) l').1 := by
  refine ⟨[⟨lit "a", [lit "<1>"]⟩, ⟨lit "a", [lit "<2>"]⟩], [⟨lit "a", [lit "<2>"]⟩, ⟨lit "a", [lit "<1>"]⟩], List.Perm.swap _ _ _, byName, byName,
    byName_sorts, byName_sorts, ?_⟩
  have e1 : byName [⟨lit "a", [lit "<1>"]⟩, ⟨lit "a", [lit "<2>"]⟩] = [⟨lit "a", [lit "<1>"]⟩, ⟨lit "a", [lit "<2>"]⟩] := by
    unfold byName
    refine List.mergeSort_of_pairwise ?_
    simp [greater, lit]
  have e2 : byName [⟨lit "a", [lit "<2>"]⟩, ⟨lit "a", [lit "<1>"]⟩] = [⟨lit "a", [lit "<2>"]⟩, ⟨lit "a", [lit "<1>"]⟩] := by
    unfold byName
    refine List.mergeSort_of_pairwise ?_
    simp [greater, lit]
  unfold calcHashes
  dsimp only
  rw [e1, e2]
  decide +kernel

end Verif.Subject
