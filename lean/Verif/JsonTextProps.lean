import Verif.JsonText
import Verif.XmlTextProps
/-
C43: texts in the JSON-RPC interface. C66: finding the values in a JSON request. C67: reading JSON texts.
-/
namespace Verif.JsonText
open CStr XmlText

/-! ### Specification (RFC 8259, section 7) -/

/-- The two-character escapes. -/
inductive Short : UInt8 → UInt8 → Prop
  | quote : Short 34 34
  | backslash : Short 92 92
  | slash : Short 47 47
  | b : Short 98 8
  | f : Short 102 12
  | n : Short 110 10
  | r : Short 114 13
  | t : Short 116 9

/-- One element of a JSON string: its text and the character it stands for. -/
inductive Elem : Bytes → Nat → Prop
  | plain (c) : 32 ≤ c.toNat → c.toNat < 128 → c ≠ 34 → c ≠ 92 → Elem [c] c.toNat
  | short (e c) : Short e c → Elem [92, e] c.toNat
  | unicode (d) : d.length = 4 → (∀ x ∈ d, (hexVal x).isSome) → Elem ([92, 117] ++ d) (hexDigits 0 d)

/-- What any JSON parser makes of the text between the quotes: `JsonMeans text chars`. -/
inductive JsonMeans : Bytes → List Nat → Prop
  | nil : JsonMeans [] []
  | cons (e c r l) : Elem e c → JsonMeans r l → JsonMeans (e ++ r) (c :: l)

/-- The text contains no control characters and no quotes and backslashes outside of escapes. -/
inductive Escaped : Bytes → Prop
  | nil : Escaped []
  | raw80 (r) : Escaped r → Escaped (128 :: r)
  | cons (e c r) : Elem e c → Escaped r → Escaped (e ++ r)

/-- A character of the basic multilingual plane (and no surrogate). -/
def Basic (cp : Nat) : Prop := 0 < cp ∧ (cp ≤ 0xD7FF ∨ (0xE000 ≤ cp ∧ cp ≤ 0xFFFF))

/-! ### Encoding -/

theorem encLoop_cons (n : Nat) (ch : UInt8) (s : Bytes) : encLoop (n + 1) (ch :: s) =
    if ch = 34 then [92, 34] ++ encLoop n s
    else if ch = 92 then [92, 92] ++ encLoop n s
    else if ch = 47 then [92, 47] ++ encLoop n s
    else if ch = 8 then [92, 98] ++ encLoop n s
    else if ch = 12 then [92, 102] ++ encLoop n s
    else if ch = 10 then [92, 110] ++ encLoop n s
    else if ch = 13 then [92, 114] ++ encLoop n s
    else if ch = 9 then [92, 116] ++ encLoop n s
    else if ch.toNat < 32 ∨ ch.toNat > 128 then
      match codePoint ch s with
      | none => []
      | some (cp, r) => [92, 117] ++ hexN 4 (if cp ≤ 65535 then cp else 46) ++ encLoop n r
    else ch :: encLoop n s := rfl

theorem encLoop_nil (n : Nat) : encLoop n [] = [] := by cases n <;> rfl

theorem elem_hex (cp : Nat) (h : cp ≤ 65535) : Elem ([92, 117] ++ hexN 4 cp) cp := by
  have := Elem.unicode (hexN 4 cp) (hexN_length 4 cp) (hexN_isHex 4 cp)
  rw [hexDigits_hexN' 4 cp (by omega)] at this
  exact this

/-- The cases of the first character of a text. -/
inductive Head (n : Nat) (ch : UInt8) (s : Bytes) : Prop
  | short (e) : Short e ch → encLoop (n + 1) (ch :: s) = [92, e] ++ encLoop n s → Head n ch s
  | code : (ch.toNat < 32 ∨ ch.toNat > 128) → (∀ e, ¬ Short e ch) → encLoop (n + 1) (ch :: s) =
      (match codePoint ch s with
       | none => []
       | some (cp, r) => [92, 117] ++ hexN 4 (if cp ≤ 65535 then cp else 46) ++ encLoop n r) → Head n ch s
  | plain : 32 ≤ ch.toNat → ch.toNat ≤ 128 → ch ≠ 34 → ch ≠ 92 → (∀ e, ¬ Short e ch) →
      encLoop (n + 1) (ch :: s) = ch :: encLoop n s → Head n ch s

theorem head_cases (n : Nat) (ch : UInt8) (s : Bytes) : Head n ch s := by
  by_cases k1 : ch = 34
  · exact .short 34 (by rw [k1]; exact .quote) (by rw [encLoop_cons, if_pos k1])
  by_cases k2 : ch = 92
  · exact .short 92 (by rw [k2]; exact .backslash) (by rw [encLoop_cons, if_neg k1, if_pos k2])
  by_cases k3 : ch = 47
  · exact .short 47 (by rw [k3]; exact .slash) (by rw [encLoop_cons, if_neg k1, if_neg k2, if_pos k3])
  by_cases k4 : ch = 8
  · exact .short 98 (by rw [k4]; exact .b) (by rw [encLoop_cons, if_neg k1, if_neg k2, if_neg k3, if_pos k4])
  by_cases k5 : ch = 12
  · exact .short 102 (by rw [k5]; exact .f) (by
      rw [encLoop_cons, if_neg k1, if_neg k2, if_neg k3, if_neg k4, if_pos k5])
  by_cases k6 : ch = 10
  · exact .short 110 (by rw [k6]; exact .n) (by
      rw [encLoop_cons, if_neg k1, if_neg k2, if_neg k3, if_neg k4, if_neg k5, if_pos k6])
  by_cases k7 : ch = 13
  · exact .short 114 (by rw [k7]; exact .r) (by
      rw [encLoop_cons, if_neg k1, if_neg k2, if_neg k3, if_neg k4, if_neg k5, if_neg k6, if_pos k7])
  by_cases k8 : ch = 9
  · exact .short 116 (by rw [k8]; exact .t) (by
      rw [encLoop_cons, if_neg k1, if_neg k2, if_neg k3, if_neg k4, if_neg k5, if_neg k6, if_neg k7, if_pos k8])
  have hns : ∀ e, ¬ Short e ch := by
    intro e h
    cases h <;> simp at *
  by_cases k9 : ch.toNat < 32 ∨ ch.toNat > 128
  · exact .code k9 hns (by
      rw [encLoop_cons, if_neg k1, if_neg k2, if_neg k3, if_neg k4, if_neg k5, if_neg k6, if_neg k7, if_neg k8,
        if_pos k9])
  · exact .plain (by omega) (by omega) k1 k2 hns (by
      rw [encLoop_cons, if_neg k1, if_neg k2, if_neg k3, if_neg k4, if_neg k5, if_neg k6, if_neg k7, if_neg k8,
        if_neg k9])

theorem short_small {e c : UInt8} (h : Short e c) : c.toNat < 128 := by cases h <;> decide

theorem encLoop_means : ∀ (cps : List Nat) (n : Nat), (∀ c ∈ cps, Basic c) →
    (cps.flatMap utf8).length ≤ n → JsonMeans (encLoop n (cps.flatMap utf8)) cps := by
  intro cps
  induction cps with
  | nil => intro n _ _; simp [encLoop_nil]; exact .nil
  | cons cp cps ih =>
    intro n hv hn
    have hcp := hv cp (by simp)
    have hv' : ∀ c ∈ cps, Basic c := fun c hc => hv c (by simp [hc])
    rw [List.flatMap_cons] at hn ⊢
    rw [List.length_append] at hn
    have hl := utf8_length cp
    unfold Basic at hcp
    cases n with
    | zero => omega
    | succ n =>
      have ih' := ih n hv' (by omega)
      by_cases h128 : cp < 128
      · have hu : utf8 cp = [UInt8.ofNat cp] := by unfold utf8; rw [if_pos h128]
        have et : (UInt8.ofNat cp).toNat = cp := toNat_ofNat (by omega)
        rw [hu, List.cons_append, List.nil_append]
        cases head_cases n (UInt8.ofNat cp) (cps.flatMap utf8) with
        | short e h1 h2 =>
          rw [h2]
          have := JsonMeans.cons _ _ _ _ (Elem.short e _ h1) ih'
          rw [et] at this
          exact this
        | code h1 _ h2 =>
          rw [h2]
          have hc : codePoint (UInt8.ofNat cp) (cps.flatMap utf8) = some (cp, cps.flatMap utf8) := by
            unfold codePoint
            simp only [et]
            rw [if_neg (by omega), if_neg (by omega), if_neg (by omega)]
          rw [hc]
          simp only
          rw [if_pos (by omega)]
          exact .cons _ _ _ _ (elem_hex cp (by omega)) ih'
        | plain h1 h2 h3 h4 h5 h6 =>
          rw [h6]
          have := JsonMeans.cons _ _ _ _ (Elem.plain _ h1 (by omega) h3 h4) ih'
          rw [et] at this
          exact this
      · obtain ⟨b, t, e1, e2, e3⟩ := codePoint_utf8 (cp := cp) (by omega) (by omega) (cps.flatMap utf8)
        rw [e1, List.cons_append]
        cases head_cases n b (t ++ cps.flatMap utf8) with
        | short e h1 h2 => have := short_small h1; omega
        | code h1 _ h2 =>
          rw [h2, e3]
          simp only
          rw [if_pos (by omega)]
          exact .cons _ _ _ _ (elem_hex cp (by omega)) ih'
        | plain h1 h2 h3 h4 h5 h6 => omega

/-- **C43.** Any JSON parser reads the encoding of a text as that text, for characters of the basic
multilingual plane. Missing: the others, which become dots (`emoji_lost`), and bytes which are no UTF-8. -/
theorem json_encode_meaning_partial (cps : List Nat) (h : ∀ c ∈ cps, Basic c) :
    JsonMeans (jsonEncode (cps.flatMap utf8)) cps :=
  encLoop_means cps _ h (Nat.le_refl _)

example : ∀ c ∈ [34, 92, 233, 10, 0x20AC], Basic c := by unfold Basic; simp
example : jsonEncode ([34, 233, 10].flatMap utf8) = lit "\\\"\\u00e9\\n" := by decide

/-- **C43, violation.** Characters outside of the basic plane are replaced. -/
theorem emoji_lost : jsonEncode (utf8 0x1F600) = lit "\\u002e" := by decide

/-- **C43, violation.** The byte 0x80 is copied as it is; it is no UTF-8. -/
theorem json_byte_80_raw : jsonEncode [128] = [128] := by decide

theorem encLoop_escaped : ∀ (n : Nat) (s : Bytes), Escaped (encLoop n s) := by
  intro n
  induction n with
  | zero => intro s; exact .nil
  | succ n ih =>
    intro s
    cases s with
    | nil => exact .nil
    | cons ch s =>
      cases head_cases n ch s with
      | short e h1 h2 => rw [h2]; exact .cons _ _ _ (.short e _ h1) (ih s)
      | code h1 _ h2 =>
        rw [h2]
        split
        · exact .nil
        · rename_i cp r _
          by_cases hcp : cp ≤ 65535
          · rw [if_pos hcp]; exact .cons _ _ _ (elem_hex cp hcp) (ih r)
          · rw [if_neg hcp]; exact .cons _ _ _ (elem_hex 46 (by omega)) (ih r)
      | plain h1 h2 h3 h4 h5 h6 =>
        rw [h6]
        by_cases h : ch.toNat < 128
        · exact .cons _ _ _ (.plain ch h1 h h3 h4) (ih s)
        · have : ch = 128 := by apply UInt8.toNat.inj; show ch.toNat = 128; omega
          rw [this]; exact .raw80 _ (ih s)

/-- **C43.** Whatever bytes a text consists of, its encoding has no control characters and no quotes and
backslashes outside of escapes. -/
theorem json_encode_escaped (s : Bytes) : Escaped (jsonEncode s) := encLoop_escaped _ s

theorem reserved_append (a b : Bytes) : reserved (a ++ b) = reserved a + reserved b := by
  unfold reserved; simp

theorem reserved_cons (c : UInt8) (b : Bytes) : reserved (c :: b) = reserve1 c + reserved b := by
  unfold reserved; simp

theorem encLoop_length : ∀ (n : Nat) (s : Bytes), (encLoop n s).length ≤ reserved s := by
  intro n
  induction n with
  | zero => intro s; simp [encLoop]
  | succ n ih =>
    intro s
    cases s with
    | nil => simp [encLoop]
    | cons ch s =>
      have hs := ih s
      rw [reserved_cons]
      cases head_cases n ch s with
      | short e h1 h2 =>
        rw [h2]
        have : reserve1 ch = 2 := by cases h1 <;> decide
        simp only [List.length_append, List.length_cons, List.length_nil]
        omega
      | code h1 hns h2 =>
        rw [h2]
        split
        · simp
        · rename_i cp r hcp
          obtain ⟨t, ht⟩ := codePoint_len hcp
          rw [ht, reserved_append]
          have h3 := ih r
          have h4 : reserve1 ch = 7 := by
            unfold reserve1
            rw [if_neg, if_pos (by omega)]
            rintro (h | h | h | h | h | h | h | h)
            · exact hns 34 (by rw [h]; exact .quote)
            · exact hns 92 (by rw [h]; exact .backslash)
            · exact hns 47 (by rw [h]; exact .slash)
            · exact hns 98 (by rw [h]; exact .b)
            · exact hns 102 (by rw [h]; exact .f)
            · exact hns 110 (by rw [h]; exact .n)
            · exact hns 114 (by rw [h]; exact .r)
            · exact hns 116 (by rw [h]; exact .t)
          simp only [List.length_append, List.length_cons, List.length_nil, hexN_length]
          omega
      | plain h1 h2 h3 h4 h5 h6 =>
        rw [h6]
        have : 1 ≤ reserve1 ch := by unfold reserve1; omega
        simp only [List.length_cons]; omega

/-- **C43.** The encoding fits into the space reserved for it. -/
theorem json_encode_fits (s : Bytes) : (jsonEncode s).length ≤ reserved s := encLoop_length _ s

/-! ### Decoding -/

theorem decLoop_nil (n : Nat) : decLoop n [] = some [] := by cases n <;> rfl

theorem decLoop_cons (n : Nat) (c : UInt8) (s : Bytes) : decLoop (n + 1) (c :: s) =
    if c = 92 then
      match escape s with
      | none => none
      | some (out, r) => (decLoop n r).map (out :: ·)
    else (decLoop n s).map (c :: ·) := rfl

theorem escape_short {e c : UInt8} (h : Short e c) (r : Bytes) : escape (e :: r) = some (c, r) := by
  cases h <;> rfl

/-- The characters which survive: printable ASCII and the ones with a short escape. -/
def Keeps (c : UInt8) : Prop := (32 ≤ c.toNat ∧ c.toNat < 128) ∨ ∃ e, Short e c

theorem decLoop_enc : ∀ (s : Bytes) (m n : Nat), s.length ≤ m → (∀ c ∈ s, Keeps c) →
    (encLoop m s).length ≤ n → decLoop n (encLoop m s) = some s := by
  intro s
  induction s with
  | nil => intro m n _ _ _; rw [encLoop_nil, decLoop_nil]
  | cons ch s ih =>
    intro m n hm hp hn
    cases m with
    | zero => simp at hm
    | succ m =>
      have hch := hp ch (by simp)
      have hp' : ∀ c ∈ s, Keeps c := fun c hc => hp c (by simp [hc])
      have hm' : s.length ≤ m := by simpa using hm
      cases head_cases m ch s with
      | short e h1 h2 =>
        rw [h2] at hn ⊢
        cases n with
        | zero => simp at hn
        | succ n =>
          simp only [List.cons_append, List.nil_append] at hn ⊢
          rw [decLoop_cons, if_pos rfl, escape_short h1]
          simp only
          rw [ih m n hm' hp' (by simp at hn; omega)]
          rfl
      | code h1 hns h2 =>
        rcases hch with h | ⟨e, h⟩
        · omega
        · exact absurd h (hns e)
      | plain h1 h2 h3 h4 h5 h6 =>
        rw [h6] at hn ⊢
        cases n with
        | zero => simp at hn
        | succ n =>
          rw [decLoop_cons, if_neg h4, ih m n hm' hp' (by simpa using hn)]
          rfl

/-- **C43.** Decoding the encoding of a text gives it back, for texts of printable ASCII characters, tabs,
line breaks and the like. Missing: the others, for which it does not hold. -/
theorem json_round_trip_partial (s : Bytes) (h : ∀ c ∈ s, Keeps c) : jsonDecode (jsonEncode s) = some s := by
  unfold jsonDecode jsonEncode
  rw [decLoop_enc s s.length _ (Nat.le_refl _) h (Nat.le_refl _)]
  show some (cstr s) = some s
  rw [cstr_of_no_nul (by
    intro b hb e
    rcases h b hb with h | ⟨x, h⟩
    · rw [e] at h; exact absurd h.1 (by decide)
    · subst e; generalize hz : (0 : UInt8) = z at h; cases h <;> simp at hz)]

example : ∀ c ∈ lit "a\"b\\c/d\n", Keeps c := by
  intro c hc
  have : c.toNat = 10 ∨ (32 ≤ c.toNat ∧ c.toNat < 128) := by
    revert c hc; decide
  rcases this with h | h
  · right; exact ⟨110, by have : c = 10 := by apply UInt8.toNat.inj; exact h
                          rw [this]; exact .n⟩
  · exact Or.inl h

/-- **C43, violation.** A letter outside of ASCII does not come back: the decoder writes one byte per
reference. -/
theorem accent_changed : jsonDecode (jsonEncode (utf8 233)) = some [233] ∧ utf8 233 = [195, 169] := by decide

/-- **C43, violation.** A control character followed by a hexadecimal digit does not come back: the
decoder reads more than four digits. -/
theorem control_digit_changed : jsonDecode (jsonEncode [1, 53]) = some [21, 53] := by decide

/-! ### C67: reading -/

/-- **C67, violation.** A text which ends with a backslash, or with an incomplete `\u`, makes the decoder
run over the end of the text. -/
theorem backslash_at_end_overruns : jsonDecode (lit "C:\\") = none ∧ jsonDecode (lit "\\u41") = none := by decide

/-- **C67.** Texts made of complete elements are decoded without leaving the text, and the result is not
longer. Missing: other texts, see `backslash_at_end_overruns`. -/
theorem json_decode_safe_partial (s : Bytes) (h : Escaped s) :
    ∃ out, jsonDecode s = some out ∧ out.length ≤ s.length := by
  have key : ∀ (n : Nat), ∃ out, decLoop n s = some out ∧ out.length ≤ s.length := by
    induction h with
    | nil => intro n; exact ⟨[], decLoop_nil n, by simp⟩
    | raw80 r _ ih =>
      intro n
      cases n with
      | zero => exact ⟨[], rfl, by simp⟩
      | succ n =>
        obtain ⟨o, p1, p2⟩ := ih n
        rw [decLoop_cons, if_neg (by decide), p1]
        exact ⟨_, rfl, by simp; exact p2⟩
    | cons e c r he _ ih =>
      intro n
      cases n with
      | zero => exact ⟨[], rfl, by simp⟩
      | succ n =>
        obtain ⟨o, p1, p2⟩ := ih n
        cases he with
        | plain c h1 h2 h3 h4 =>
          rw [List.cons_append, List.nil_append, decLoop_cons, if_neg h4, p1]
          exact ⟨_, rfl, by simp; exact p2⟩
        | short e c hs =>
          simp only [List.cons_append, List.nil_append]
          rw [decLoop_cons, if_pos rfl, escape_short hs]
          simp only
          rw [p1]
          exact ⟨_, rfl, by simp; omega⟩
        | unicode d h1 h2 =>
          simp only [List.cons_append, List.nil_append]
          have he : escape (117 :: (d ++ r)) = some (strtolLow (d ++ r), r) := by
            show (if (d ++ r).length < 4 then none else some (strtolLow (d ++ r), (d ++ r).drop 4)) = _
            rw [if_neg (by simp; omega)]
            rw [← h1, List.drop_left]
          rw [decLoop_cons, if_pos rfl, he]
          simp only
          rw [p1]
          exact ⟨_, rfl, by simp; omega⟩
  obtain ⟨o, p1, p2⟩ := key s.length
  refine ⟨cstr o, by unfold jsonDecode; rw [p1]; rfl, ?_⟩
  have := cstr_length o
  omega

example : Escaped (lit "a\\\"b") :=
  .cons [97] 97 _ (.plain 97 (by decide) (by decide) (by decide) (by decide))
    (.cons [92, 34] 34 _ (.short 34 34 .quote)
      (.cons [98] 98 _ (.plain 98 (by decide) (by decide) (by decide) (by decide)) .nil))

/-! ### C66: finding the values -/

/-- **C66, violation.** The string `"\n\""` is taken to end at its escaped quote. -/
theorem adjacent_escapes_cut :
    nextValue (lit "\"a\\n\\\"b\", 5") = some (lit "\"a\\n\\\"", lit "b\", 5") := by
  simp [nextValue, lit, isLead, scan]

/-- **C66, violation.** The string `"\\\\"` is taken to extend over its end. -/
theorem two_backslashes_extend :
    nextValue (lit "\"\\\\\\\\\",\"b\"]") = some (lit "\"\\\\\\\\\",\"", lit "b\"]") := by
  simp [nextValue, lit, isLead, scan]

/-- The body of a string in which no short escape is directly followed by `\"` or `\\`; the flag tells
that a short escape precedes. -/
inductive Body : Bool → Bytes → Prop
  | nil (f) : Body f []
  | plain (f c r) : 32 ≤ c.toNat → c ≠ 34 → c ≠ 92 → Body false r → Body f (c :: r)
  | short (f e r) : (f = true → e ≠ 34 ∧ e ≠ 92) → e ≠ 117 → Body true r → Body f (92 :: e :: r)
  | unicode (f d r) : d.length = 4 → (∀ x ∈ d, (hexVal x).isSome) → Body false r →
      Body f (92 :: 117 :: (d ++ r))

/-- The scanning of a string from a character on. -/
def cont (t acc : Bytes) : Option (Bytes × Bytes) :=
  match t with
  | [] => some (acc.reverse, [])
  | d :: s => scan true d s acc

/-- The scanning of a string after an escape. -/
def aft (t acc : Bytes) : Option (Bytes × Bytes) :=
  match t with
  | [] => none
  | c :: s => if c = 34 then some ((34 :: acc).reverse, s) else cont s (c :: acc)

theorem aft_cons (c : UInt8) (s acc : Bytes) :
    aft (c :: s) acc = if c = 34 then some ((34 :: acc).reverse, s) else cont s (c :: acc) := rfl

theorem cont_cons (c : UInt8) (s acc : Bytes) : cont (c :: s) acc = scan true c s acc := rfl

theorem cont_plain {c : UInt8} (h1 : c ≠ 34) (h2 : c ≠ 92) (s acc : Bytes) :
    cont (c :: s) acc = cont s (c :: acc) := by
  rw [cont_cons, scan.eq_def, if_neg h2, if_neg (by simp [h1]), if_neg (by simp)]
  cases s <;> rfl

theorem cont_quote (s acc : Bytes) : cont (34 :: s) acc = some ((34 :: acc).reverse, s) := by
  rw [cont_cons, scan.eq_def, if_neg (by decide), if_pos ⟨rfl, rfl⟩]

theorem cont_escape (e : UInt8) (s acc : Bytes) : cont (92 :: e :: s) acc = aft s (e :: 92 :: acc) := by
  rw [cont_cons, scan.eq_def, if_pos rfl]
  cases s with
  | nil => rfl
  | cons c s =>
    rw [aft_cons]
    dsimp only
    by_cases hc : c = 34
    · rw [if_pos ⟨rfl, hc⟩, if_pos hc]
    · rw [if_neg (fun h => hc h.2), if_neg hc, if_neg (by simp)]
      cases s <;> rfl

theorem cont_hex : ∀ (d s acc : Bytes), (∀ x ∈ d, (hexVal x).isSome) →
    cont (d ++ s) acc = cont s (d.reverse ++ acc) := by
  intro d
  induction d with
  | nil => intro s acc _; rfl
  | cons x d ih =>
    intro s acc h
    have hx := h x (by simp)
    rw [List.cons_append, cont_plain (by intro e; rw [e] at hx; exact absurd hx (by decide))
      (by intro e; rw [e] at hx; exact absurd hx (by decide)), ih s _ (fun y hy => h y (by simp [hy]))]
    simp

theorem body_scanned {f : Bool} {b : Bytes} (h : Body f b) (rest : Bytes) :
    (∀ acc, cont (b ++ 34 :: rest) acc = some (acc.reverse ++ b ++ [34], rest)) ∧
    (f = true → ∀ acc, aft (b ++ 34 :: rest) acc = some (acc.reverse ++ b ++ [34], rest)) := by
  induction h with
  | nil f =>
    refine ⟨fun acc => ?_, fun _ acc => ?_⟩
    · rw [List.nil_append, cont_quote]; simp
    · rw [List.nil_append, aft_cons, if_pos rfl]; simp
  | plain f c r h1 h2 h3 _ ih =>
    refine ⟨fun acc => ?_, fun _ acc => ?_⟩
    · rw [List.cons_append, cont_plain h2 h3, ih.1]; simp
    · rw [List.cons_append, aft_cons, if_neg h2, ih.1]; simp
  | short f e r h1 h2 _ ih =>
    refine ⟨fun acc => ?_, fun hf acc => ?_⟩
    · simp only [List.cons_append]
      rw [cont_escape, ih.2 rfl]; simp
    · simp only [List.cons_append]
      rw [aft_cons, if_neg (by decide), cont_plain (h1 hf).1 (h1 hf).2, ih.1]; simp
  | unicode f d r h1 h2 _ ih =>
    refine ⟨fun acc => ?_, fun hf acc => ?_⟩
    · simp only [List.cons_append, List.append_assoc]
      rw [cont_escape]
      cases d with
      | nil => simp at h1
      | cons x d =>
        have hx := h2 x (by simp)
        rw [List.cons_append, aft_cons, if_neg (by intro e; rw [e] at hx; exact absurd hx (by decide)),
          cont_hex d _ _ (fun y hy => h2 y (by simp [hy])), ih.1]
        simp
    · simp only [List.cons_append, List.append_assoc]
      rw [aft_cons, if_neg (by decide), cont_plain (by decide) (by decide), cont_hex d _ _ h2, ih.1]
      simp

/-- **C66.** The next value of a request, if it is a string in which no short escape is directly followed
by an escaped quote or backslash, is found from its opening to its closing quote. Missing: other strings,
which are cut or extended. -/
theorem string_value_found_partial (lead b rest : Bytes) (hl : ∀ c ∈ lead, isLead c = true)
    (hb : Body false b) :
    nextValue (lead ++ 34 :: b ++ 34 :: rest) = some ([34] ++ b ++ [34], rest) := by
  unfold nextValue
  have hd : (lead ++ 34 :: b ++ 34 :: rest).dropWhile isLead = 34 :: (b ++ 34 :: rest) := by
    rw [List.append_assoc]
    induction lead with
    | nil => simp [isLead, lit]
    | cons c lead ih =>
      rw [List.cons_append, List.dropWhile_cons, if_pos (hl c (by simp))]
      exact ih (fun d hd => hl d (by simp [hd]))
  rw [hd]
  simp only [if_true]
  have := (body_scanned hb rest).1 [34]
  cases hx : b ++ 34 :: rest with
  | nil => simp at hx
  | cons d s' => rw [hx, cont_cons] at this; exact this

/-- The text `say \"hi\"` meets the hypothesis. -/
example : Body false (lit "a\\\"b\\n\\t") :=
  .plain _ 97 _ (by decide) (by decide) (by decide) (.short _ 34 _ (by decide) (by decide)
    (.plain _ 98 _ (by decide) (by decide) (by decide) (.short _ 110 _ (by decide) (by decide)
      (.short _ 116 _ (by decide) (by decide) (.nil _)))))

end Verif.JsonText
