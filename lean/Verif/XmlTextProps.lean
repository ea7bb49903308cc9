import Verif.XmlText
/-
C42: texts in the XML-RPC interface. C65: reading XML texts from the network.
-/
namespace Verif.XmlText
open CStr

/-! ### Specification -/

/-- UTF-8 (RFC 3629). -/
def utf8 (cp : Nat) : Bytes :=
  if cp < 128 then [UInt8.ofNat cp]
  else if cp < 2048 then [UInt8.ofNat (192 + cp / 64), UInt8.ofNat (128 + cp % 64)]
  else if cp < 65536 then
    [UInt8.ofNat (224 + cp / 4096), UInt8.ofNat (128 + cp / 64 % 64), UInt8.ofNat (128 + cp % 64)]
  else [UInt8.ofNat (240 + cp / 262144), UInt8.ofNat (128 + cp / 4096 % 64),
        UInt8.ofNat (128 + cp / 64 % 64), UInt8.ofNat (128 + cp % 64)]

/-- The characters allowed in XML 1.0 (production 2). -/
def XmlChar (cp : Nat) : Prop :=
  cp = 9 ∨ cp = 10 ∨ cp = 13 ∨ (32 ≤ cp ∧ cp ≤ 0xD7FF) ∨ (0xE000 ≤ cp ∧ cp ≤ 0xFFFD) ∨
  (0x10000 ≤ cp ∧ cp ≤ 0x10FFFF)

/-- `<`, `>`, `&`, `'` or `"`. -/
def Markup (c : UInt8) : Prop := c = 60 ∨ c = 62 ∨ c = 38 ∨ c = 39 ∨ c = 34

/-- The five predefined entities. -/
inductive Named : Bytes → UInt8 → Prop
  | lt : Named (lit "&lt;") 60
  | gt : Named (lit "&gt;") 62
  | amp : Named (lit "&amp;") 38
  | apos : Named (lit "&apos;") 39
  | quot : Named (lit "&quot;") 34

/-- What any XML parser makes of a character data text: ASCII characters stand for themselves, entities
and character references for the character they name. `XmlMeans text chars`. -/
inductive XmlMeans : Bytes → List Nat → Prop
  | nil : XmlMeans [] []
  | plain (c r l) : 32 ≤ c.toNat → c.toNat < 128 → ¬ Markup c → XmlMeans r l →
      XmlMeans (c :: r) (c.toNat :: l)
  | named (e c r l) : Named e c → XmlMeans r l → XmlMeans (e ++ r) (c.toNat :: l)
  | ref (d r l) : d ≠ [] → (∀ x ∈ d, (hexVal x).isSome) → XmlChar (hexDigits 0 d) → XmlMeans r l →
      XmlMeans (lit "&#x" ++ d ++ lit ";" ++ r) (hexDigits 0 d :: l)

/-- No raw markup: outside of entities and references there are only characters which are no markup. -/
inductive NoMarkup : Bytes → Prop
  | nil : NoMarkup []
  | plain (c r) : 32 ≤ c.toNat → c.toNat ≤ 128 → ¬ Markup c → NoMarkup r → NoMarkup (c :: r)
  | named (e c r) : Named e c → NoMarkup r → NoMarkup (e ++ r)
  | ref (d r) : d ≠ [] → (∀ x ∈ d, (hexVal x).isSome) → XmlChar (hexDigits 0 d) → NoMarkup r →
      NoMarkup (lit "&#x" ++ d ++ lit ";" ++ r)

/-! ### Lemmas -/

theorem hexN_isHex : ∀ k n, ∀ x ∈ hexN k n, (hexVal x).isSome := by
  intro k
  induction k with
  | zero => intro n x h; simp [hexN] at h
  | succ k ih =>
    intro n x h
    unfold hexN at h
    rcases List.mem_append.mp h with h | h
    · exact ih _ x h
    · simp only [List.mem_cons, List.not_mem_nil, or_false] at h
      rw [h, hexVal_hexChar (Nat.mod_lt _ (by omega))]; rfl

theorem hexDigits_hexN : ∀ (k n : Nat) (acc : Nat) (rest : Bytes),
    hexDigits acc (hexN k n ++ rest) = hexDigits (acc * 16 ^ k + n % 16 ^ k) rest := by
  intro k
  induction k with
  | zero => intro n acc rest; simp [hexN, Nat.mod_one]
  | succ k ih =>
    intro n acc rest
    unfold hexN
    rw [List.append_assoc, ih]
    simp only [List.cons_append, List.nil_append, hexDigits]
    rw [hexVal_hexChar (Nat.mod_lt _ (by omega))]
    show hexDigits ((acc * 16 ^ k + n / 16 % 16 ^ k) * 16 + n % 16) rest = _
    congr 1
    have h1 : n % 16 ^ (k + 1) = n % 16 + 16 * (n / 16 % 16 ^ k) := by
      rw [Nat.pow_succ, Nat.mul_comm, Nat.mod_mul]
    rw [h1, Nat.pow_succ, Nat.add_mul, Nat.mul_assoc]
    omega

theorem hexDigits_hexN' (k n : Nat) (h : n < 16 ^ k) : hexDigits 0 (hexN k n) = n := by
  have := hexDigits_hexN k n 0 []
  rw [List.append_nil] at this
  rw [this, Nat.mod_eq_of_lt h]
  simp [hexDigits]

theorem hexN_ne_nil (k n : Nat) : hexN (k + 1) n ≠ [] := by unfold hexN; simp

theorem charRef_valid {cp : Nat} (h : XmlChar cp) : charRef cp = lit "&#x" ++ hexN 6 cp ++ lit ";" := by
  unfold charRef
  rw [if_pos]
  · rfl
  · unfold XmlChar at h; omega

theorem toNat_ofNat {n : Nat} (h : n < 256) : (UInt8.ofNat n).toNat = n := by
  rw [UInt8.toNat_ofNat']; omega

/-- The decoder of UTF-8 inverts the encoder. -/
theorem codePoint_utf8 {cp : Nat} (h1 : 128 ≤ cp) (h2 : cp ≤ 0x10FFFF) (s : Bytes) :
    ∃ b t, utf8 cp = b :: t ∧ b.toNat > 128 ∧ codePoint b (t ++ s) = some (cp, s) := by
  unfold utf8
  rw [if_neg (by omega)]
  by_cases h3 : cp < 2048
  · rw [if_pos h3]
    refine ⟨_, _, rfl, by rw [toNat_ofNat (by omega)]; omega, ?_⟩
    have e0 : (UInt8.ofNat (192 + cp / 64)).toNat = 192 + cp / 64 := toNat_ofNat (by omega)
    have e1 : (UInt8.ofNat (128 + cp % 64)).toNat = 128 + cp % 64 := toNat_ofNat (by omega)
    have hc : isCont (UInt8.ofNat (128 + cp % 64) :: s) = true := by
      simp only [isCont, e1, beq_iff_eq]; omega
    unfold codePoint
    simp only [List.cons_append, List.nil_append, e0, e1, hc, and_true]
    rw [if_pos (by omega)]
    congr 2
    omega
  · rw [if_neg h3]
    by_cases h4 : cp < 65536
    · rw [if_pos h4]
      refine ⟨_, _, rfl, by rw [toNat_ofNat (by omega)]; omega, ?_⟩
      have e0 : (UInt8.ofNat (224 + cp / 4096)).toNat = 224 + cp / 4096 := toNat_ofNat (by omega)
      have e1 : (UInt8.ofNat (128 + cp / 64 % 64)).toNat = 128 + cp / 64 % 64 := toNat_ofNat (by omega)
      have e2 : (UInt8.ofNat (128 + cp % 64)).toNat = 128 + cp % 64 := toNat_ofNat (by omega)
      have hc : isCont (UInt8.ofNat (128 + cp / 64 % 64) :: (UInt8.ofNat (128 + cp % 64) :: s)) = true := by
        simp only [isCont, e1, beq_iff_eq]; omega
      unfold codePoint
      simp only [List.cons_append, List.nil_append, e0, e1, e2, hc, and_true]
      rw [if_neg (by omega), if_pos (by omega)]
      congr 2
      omega
    · rw [if_neg h4]
      refine ⟨_, _, rfl, by rw [toNat_ofNat (by omega)]; omega, ?_⟩
      have e0 : (UInt8.ofNat (240 + cp / 262144)).toNat = 240 + cp / 262144 := toNat_ofNat (by omega)
      have e1 : (UInt8.ofNat (128 + cp / 4096 % 64)).toNat = 128 + cp / 4096 % 64 := toNat_ofNat (by omega)
      have e2 : (UInt8.ofNat (128 + cp / 64 % 64)).toNat = 128 + cp / 64 % 64 := toNat_ofNat (by omega)
      have e3 : (UInt8.ofNat (128 + cp % 64)).toNat = 128 + cp % 64 := toNat_ofNat (by omega)
      have hc : isCont (UInt8.ofNat (128 + cp / 4096 % 64) :: (UInt8.ofNat (128 + cp / 64 % 64) ::
          (UInt8.ofNat (128 + cp % 64) :: s))) = true := by
        simp only [isCont, e1, beq_iff_eq]; omega
      unfold codePoint
      simp only [List.cons_append, List.nil_append, e0, e1, e2, e3, hc, and_true]
      rw [if_neg (by omega), if_neg (by omega), if_pos (by omega)]
      congr 2
      omega

theorem utf8_length (cp : Nat) : 1 ≤ (utf8 cp).length := by
  unfold utf8; split
  · simp
  · split
    · simp
    · split <;> simp

theorem encLoop_cons (n : Nat) (ch : UInt8) (s : Bytes) : encLoop (n + 1) (ch :: s) =
    if ch = 60 then lit "&lt;" ++ encLoop n s
    else if ch = 62 then lit "&gt;" ++ encLoop n s
    else if ch = 38 then lit "&amp;" ++ encLoop n s
    else if ch = 39 then lit "&apos;" ++ encLoop n s
    else if ch = 34 then lit "&quot;" ++ encLoop n s
    else if ch.toNat < 32 ∨ ch.toNat > 128 then
      match codePoint ch s with
      | none => []
      | some (cp, r) => charRef cp ++ encLoop n r
    else ch :: encLoop n s := rfl

theorem encLoop_nil (n : Nat) : encLoop n [] = [] := by cases n <;> rfl

theorem big_ne {b : UInt8} {k : Nat} (h : k < b.toNat) (c : UInt8) (hc : c.toNat ≤ k) : b ≠ c := by
  intro e; subst e; omega

theorem encLoop_means : ∀ (cps : List Nat) (n : Nat), (∀ c ∈ cps, XmlChar c) →
    (cps.flatMap utf8).length ≤ n → XmlMeans (encLoop n (cps.flatMap utf8)) cps := by
  intro cps
  induction cps with
  | nil => intro n _ _; simp [encLoop_nil]; exact .nil
  | cons cp cps ih =>
    intro n hv hn
    have hcp := hv cp (by simp)
    have hv' : ∀ c ∈ cps, XmlChar c := fun c hc => hv c (by simp [hc])
    rw [List.flatMap_cons] at hn ⊢
    rw [List.length_append] at hn
    have hl := utf8_length cp
    cases n with
    | zero => omega
    | succ n =>
      have ih' := ih n hv' (by omega)
      by_cases h128 : cp < 128
      · have hu : utf8 cp = [UInt8.ofNat cp] := by unfold utf8; rw [if_pos h128]
        rw [hu, List.cons_append, List.nil_append, encLoop_cons]
        have et : (UInt8.ofNat cp).toNat = cp := toNat_ofNat (by omega)
        have named : ∀ {e : Bytes} {c : UInt8}, Named e c → UInt8.ofNat cp = c →
            XmlMeans (e ++ encLoop n (cps.flatMap utf8)) (cp :: cps) := by
          intro e c he hc
          have := XmlMeans.named e c _ _ he ih'
          rw [← hc, et] at this
          exact this
        by_cases k1 : UInt8.ofNat cp = 60
        · rw [if_pos k1]; exact named .lt k1
        rw [if_neg k1]
        by_cases k2 : UInt8.ofNat cp = 62
        · rw [if_pos k2]; exact named .gt k2
        rw [if_neg k2]
        by_cases k3 : UInt8.ofNat cp = 38
        · rw [if_pos k3]; exact named .amp k3
        rw [if_neg k3]
        by_cases k4 : UInt8.ofNat cp = 39
        · rw [if_pos k4]; exact named .apos k4
        rw [if_neg k4]
        by_cases k5 : UInt8.ofNat cp = 34
        · rw [if_pos k5]; exact named .quot k5
        rw [if_neg k5, et]
        by_cases k6 : cp < 32
        · rw [if_pos (Or.inl k6)]
          have hc : codePoint (UInt8.ofNat cp) (cps.flatMap utf8) = some (cp, cps.flatMap utf8) := by
            unfold codePoint
            simp only [et]
            rw [if_neg (by omega), if_neg (by omega), if_neg (by omega)]
          rw [hc]
          simp only
          rw [charRef_valid hcp]
          have hd := hexDigits_hexN' 6 cp (by omega)
          have := XmlMeans.ref (hexN 6 cp) _ _ (hexN_ne_nil 5 cp) (hexN_isHex 6 cp) (by rw [hd]; exact hcp) ih'
          rw [hd] at this
          exact this
        · rw [if_neg (by omega)]
          have := XmlMeans.plain (UInt8.ofNat cp) _ _ (by rw [et]; omega) (by rw [et]; omega)
            (by unfold Markup; simp only [not_or]; exact ⟨k1, k2, k3, k4, k5⟩) ih'
          rw [et] at this
          exact this
      · have hmax : cp ≤ 0x10FFFF := by unfold XmlChar at hcp; omega
        obtain ⟨b, t, e1, e2, e3⟩ := codePoint_utf8 (by omega) hmax (cps.flatMap utf8)
        rw [e1, List.cons_append, encLoop_cons]
        rw [if_neg (big_ne e2 60 (by decide)), if_neg (big_ne e2 62 (by decide)),
          if_neg (big_ne e2 38 (by decide)), if_neg (big_ne e2 39 (by decide)),
          if_neg (big_ne e2 34 (by decide)), if_pos (Or.inr e2), e3]
        simp only
        rw [charRef_valid hcp]
        have hd := hexDigits_hexN' 6 cp (by omega)
        have := XmlMeans.ref (hexN 6 cp) _ _ (hexN_ne_nil 5 cp) (hexN_isHex 6 cp) (by rw [hd]; exact hcp) ih'
        rw [hd] at this
        exact this

/-- **C42.** Any XML parser reads the encoding of a text (given in UTF-8, of characters allowed in XML)
as that text. -/
theorem xml_encode_meaning (cps : List Nat) (h : ∀ c ∈ cps, XmlChar c) :
    XmlMeans (xmlEncode (cps.flatMap utf8)) cps :=
  encLoop_means cps _ h (Nat.le_refl _)

/-- A text with markup, an accented letter and a character outside of the basic plane. -/
example : ∀ c ∈ [60, 97, 38, 233, 0x1F600], XmlChar c := by unfold XmlChar; simp
example : xmlEncode ([60, 97, 38, 233].flatMap utf8) = lit "&lt;a&amp;&#x0000e9;" := by decide

theorem charRef_noMarkup (cp : Nat) (r : Bytes) (h : NoMarkup r) : NoMarkup (charRef cp ++ r) := by
  by_cases hv : XmlChar cp
  · rw [charRef_valid hv]
    have hd := hexDigits_hexN' 6 cp (by unfold XmlChar at hv; omega)
    exact .ref _ _ (hexN_ne_nil 5 cp) (hexN_isHex 6 cp) (by rw [hd]; exact hv) h
  · unfold charRef
    rw [if_neg (by unfold XmlChar at hv; omega)]
    exact .plain 46 r (by decide) (by decide) (by unfold Markup; decide) h

theorem encLoop_noMarkup : ∀ (n : Nat) (s : Bytes), NoMarkup (encLoop n s) := by
  intro n
  induction n with
  | zero => intro s; exact .nil
  | succ n ih =>
    intro s
    cases s with
    | nil => exact .nil
    | cons ch s =>
      rw [encLoop_cons]
      by_cases k1 : ch = 60
      · rw [if_pos k1]; exact .named _ _ _ .lt (ih s)
      rw [if_neg k1]
      by_cases k2 : ch = 62
      · rw [if_pos k2]; exact .named _ _ _ .gt (ih s)
      rw [if_neg k2]
      by_cases k3 : ch = 38
      · rw [if_pos k3]; exact .named _ _ _ .amp (ih s)
      rw [if_neg k3]
      by_cases k4 : ch = 39
      · rw [if_pos k4]; exact .named _ _ _ .apos (ih s)
      rw [if_neg k4]
      by_cases k5 : ch = 34
      · rw [if_pos k5]; exact .named _ _ _ .quot (ih s)
      rw [if_neg k5]
      by_cases k6 : ch.toNat < 32 ∨ ch.toNat > 128
      · rw [if_pos k6]
        split
        · exact .nil
        · exact charRef_noMarkup _ _ (ih _)
      · rw [if_neg k6]
        exact .plain _ _ (by omega) (by omega) (by unfold Markup; simp only [not_or]; exact ⟨k1, k2, k3, k4, k5⟩)
          (ih s)

/-- **C42.** Whatever bytes a text consists of, its encoding contains no raw markup. -/
theorem xml_encode_no_markup (s : Bytes) : NoMarkup (xmlEncode s) := encLoop_noMarkup _ s

/-- **C42, violation.** The byte 0x80 (the euro sign in names written with the code page 1252) is copied
as it is. It is no UTF-8, the whole answer of the program cannot be parsed. -/
theorem byte_80_raw : xmlEncode [128] = [128] ∧ ∀ l, ¬ XmlMeans [128] l := by
  refine ⟨by decide, ?_⟩
  intro l h
  generalize hx : ([128] : Bytes) = x at h
  cases h with
  | nil => simp at hx
  | plain c r l h1 h2 h3 h4 =>
    simp only [List.cons.injEq] at hx
    rw [← hx.1] at h2; exact absurd h2 (by decide)
  | named e c r l h1 h2 =>
    cases h1 <;> simp [lit] at hx
  | ref d r l h1 h2 h3 h4 => simp [lit] at hx

/-! #### Length -/

theorem codePoint_len {ch : UInt8} {s r : Bytes} {cp : Nat} (h : codePoint ch s = some (cp, r)) :
    ∃ t, s = t ++ r := by
  unfold codePoint at h
  dsimp only at h
  split at h
  · cases s with
    | nil => simp at h
    | cons c1 s => simp at h; exact ⟨[c1], by rw [← h.2]; rfl⟩
  · split at h
    · match s, h with
      | [], h => simp at h
      | [_], h => simp at h
      | c1 :: c2 :: s, h => simp at h; exact ⟨[c1, c2], by rw [← h.2]; rfl⟩
    · split at h
      · match s, h with
        | [], h => simp at h
        | [_], h => simp at h
        | [_, _], h => simp at h
        | c1 :: c2 :: c3 :: s, h => simp at h; exact ⟨[c1, c2, c3], by rw [← h.2]; rfl⟩
      · simp at h; exact ⟨[], by rw [← h.2]; rfl⟩

theorem hexN_length : ∀ k n, (hexN k n).length = k := by
  intro k
  induction k with
  | zero => intro n; rfl
  | succ k ih => intro n; unfold hexN; simp [ih]

theorem charRef_length (cp : Nat) : (charRef cp).length ≤ 10 := by
  unfold charRef
  split
  · simp [hexN_length, lit]
  · simp

theorem reserved_append (a b : Bytes) : reserved (a ++ b) = reserved a + reserved b := by
  unfold reserved; simp

theorem reserved_cons (c : UInt8) (b : Bytes) : reserved (c :: b) = reserve1 c + reserved b := by
  unfold reserved; simp

theorem encLoop_length : ∀ (n : Nat) (s : Bytes), (encLoop n s).length ≤ reserved s := by
  intro n
  induction n with
  | zero => intro s; simp [encLoop]
  | succ n ih =>
    intro s
    cases s with
    | nil => simp [encLoop]
    | cons ch s =>
      have := ih s
      rw [reserved_cons]
      rw [encLoop_cons]
      by_cases k1 : ch = 60
      · rw [if_pos k1]; subst k1; simp [lit, reserve1]; omega
      rw [if_neg k1]
      by_cases k2 : ch = 62
      · rw [if_pos k2]; subst k2; simp [lit, reserve1]; omega
      rw [if_neg k2]
      by_cases k3 : ch = 38
      · rw [if_pos k3]; subst k3; simp [lit, reserve1]; omega
      rw [if_neg k3]
      by_cases k4 : ch = 39
      · rw [if_pos k4]; subst k4; simp [lit, reserve1]; omega
      rw [if_neg k4]
      by_cases k5 : ch = 34
      · rw [if_pos k5]; subst k5; simp [lit, reserve1]; omega
      rw [if_neg k5]
      by_cases k6 : ch.toNat < 32 ∨ ch.toNat > 128
      · rw [if_pos k6]
        split
        · simp
        · rename_i cp r hcp
          obtain ⟨t, ht⟩ := codePoint_len hcp
          rw [ht, reserved_append]
          have h1 := ih r
          have h2 := charRef_length cp
          have h3 : reserve1 ch = 11 := by
            unfold reserve1
            rw [if_neg (by simp [k1, k2]), if_neg k3, if_neg (by simp [k4, k5]), if_pos (by omega)]
          rw [List.length_append]
          omega
      · rw [if_neg k6]
        have : 1 ≤ reserve1 ch := by unfold reserve1; omega
        simp only [List.length_cons]; omega

/-- **C42.** The encoding fits into the space reserved for it. -/
theorem xml_encode_fits (s : Bytes) : (xmlEncode s).length ≤ reserved s := encLoop_length _ s

/-! ### Round trip with the decoder of the program -/

theorem decLoop_nil (n : Nat) : decLoop n [] = some [] := by cases n <;> rfl

theorem decLoop_cons (n : Nat) (c : UInt8) (s : Bytes) : decLoop (n + 1) (c :: s) =
    if c = 38 then
      match entity s with
      | none => none
      | some (out, r) => (decLoop n r).map (out ++ ·)
    else (decLoop n s).map (c :: ·) := rfl

theorem entity_named {e : Bytes} {c : UInt8} (h : Named e c) (r : Bytes) :
    ∃ t, e = 38 :: t ∧ entity (t ++ r) = some ([c], r) := by
  cases h
  · exact ⟨lit "lt;", rfl, by simp [entity, startsWith, lit]⟩
  · exact ⟨lit "gt;", rfl, by simp [entity, startsWith, lit]⟩
  · exact ⟨lit "amp;", rfl, by simp [entity, startsWith, lit]⟩
  · exact ⟨lit "apos;", rfl, by simp [entity, startsWith, lit]⟩
  · exact ⟨lit "quot;", rfl, by simp [entity, startsWith, lit]⟩

/-- Texts of entities and plain characters are decoded to what they mean. -/
theorem decLoop_enc : ∀ (s : Bytes) (m n : Nat), s.length ≤ m → (∀ c ∈ s, 32 ≤ c.toNat ∧ c.toNat ≤ 128) →
    (encLoop m s).length ≤ n → decLoop n (encLoop m s) = some s := by
  intro s
  induction s with
  | nil => intro m n _ _ _; rw [encLoop_nil, decLoop_nil]
  | cons ch s ih =>
    intro m n hm hp hn
    cases m with
    | zero => simp at hm
    | succ m =>
      have hch := hp ch (by simp)
      have hp' : ∀ c ∈ s, 32 ≤ c.toNat ∧ c.toNat ≤ 128 := fun c hc => hp c (by simp [hc])
      have hm' : s.length ≤ m := by simpa using hm
      have named : ∀ {e : Bytes} {c : UInt8}, Named e c → ch = c → (e ++ encLoop m s).length ≤ n →
          decLoop n (e ++ encLoop m s) = some (ch :: s) := by
        intro e c he hc hl
        obtain ⟨t, e1, e2⟩ := entity_named he (encLoop m s)
        subst e1
        cases n with
        | zero => simp at hl
        | succ n =>
          rw [List.cons_append, decLoop_cons, if_pos rfl, e2]
          simp only
          rw [ih m n hm' hp' (by simp at hl; omega), hc]
          rfl
      rw [encLoop_cons] at hn ⊢
      by_cases k1 : ch = 60
      · rw [if_pos k1] at hn ⊢; exact named .lt k1 hn
      rw [if_neg k1] at hn ⊢
      by_cases k2 : ch = 62
      · rw [if_pos k2] at hn ⊢; exact named .gt k2 hn
      rw [if_neg k2] at hn ⊢
      by_cases k3 : ch = 38
      · rw [if_pos k3] at hn ⊢; exact named .amp k3 hn
      rw [if_neg k3] at hn ⊢
      by_cases k4 : ch = 39
      · rw [if_pos k4] at hn ⊢; exact named .apos k4 hn
      rw [if_neg k4] at hn ⊢
      by_cases k5 : ch = 34
      · rw [if_pos k5] at hn ⊢; exact named .quot k5 hn
      rw [if_neg k5] at hn ⊢
      rw [if_neg (by omega)] at hn ⊢
      cases n with
      | zero => simp at hn
      | succ n =>
        rw [decLoop_cons, if_neg k3, ih m n hm' hp' (by simpa using hn)]
        rfl

/-- **C42.** Decoding the encoding of a text of printable ASCII characters gives it back. -/
theorem xml_round_trip (s : Bytes) (h : ∀ c ∈ s, 32 ≤ c.toNat ∧ c.toNat ≤ 126) :
    xmlDecode (xmlEncode s) = some s := by
  unfold xmlDecode xmlEncode
  rw [decLoop_enc s s.length _ (Nat.le_refl _) (fun c hc => by have := h c hc; omega) (Nat.le_refl _)]
  show some (cstr s) = some s
  rw [cstr_of_no_nul (by
    intro b hb e
    have := h b hb
    rw [e] at this
    exact absurd this.1 (by decide))]

example : xmlDecode (xmlEncode (lit "a<b & \"c\" &lt;")) = some (lit "a<b & \"c\" &lt;") := by decide

theorem dec_newline : ∀ (a b : Bytes) (n : Nat), (∀ c ∈ a, 32 ≤ c.toNat ∧ c.toNat ≤ 126 ∧ ¬ Markup c) →
    a.length < n → (decLoop n (a ++ lit "&#x00000a;" ++ b)).map cstr = some a ∨
      decLoop n (a ++ lit "&#x00000a;" ++ b) = none := by
  intro a b
  induction a with
  | nil =>
    intro n h hn
    cases n with
    | zero => omega
    | succ n =>
      have he : entity (lit "#x00000a;" ++ b) = some ([0], lit "x00000a;" ++ b) := by
        simp [entity, startsWith, lit, skipRef, refChar, isDigit, atoll, isSpace, digits, clamp64, charOf]
        decide
      show (decLoop (n + 1) (38 :: (lit "#x00000a;" ++ b))).map cstr = some [] ∨
        decLoop (n + 1) (38 :: (lit "#x00000a;" ++ b)) = none
      rw [decLoop_cons, if_pos rfl, he]
      simp only
      cases decLoop n (lit "x00000a;" ++ b) with
      | none => right; rfl
      | some v => left; rfl
  | cons c a ih =>
    intro n h hn
    have hc := h c (by simp)
    have hne : c ≠ 38 := by intro e; exact hc.2.2 (by unfold Markup; simp [e])
    have hnz : c ≠ 0 := by intro e; rw [e] at hc; exact absurd hc.1 (by decide)
    cases n with
    | zero => omega
    | succ n =>
      have ih' := ih n (fun d hd => h d (by simp [hd])) (by simp at hn; omega)
      simp only [List.cons_append] at ih' ⊢
      rw [decLoop_cons, if_neg hne]
      cases hd : decLoop n (a ++ lit "&#x00000a;" ++ b) with
      | none => right; rfl
      | some v =>
        left
        rw [hd] at ih'
        simp only [Option.map_some, Option.some.injEq, reduceCtorEq, or_false] at ih'
        simp [cstr, hnz, ih']

theorem enc_newline : ∀ (a b : Bytes) (n : Nat), (∀ c ∈ a, 32 ≤ c.toNat ∧ c.toNat ≤ 126 ∧ ¬ Markup c) →
    a.length + b.length + 1 = n →
    encLoop n (a ++ 10 :: b) = a ++ lit "&#x00000a;" ++ encLoop b.length b := by
  intro a b
  induction a with
  | nil =>
    intro n _ hn
    subst hn
    show encLoop (0 + b.length + 1) (10 :: b) = _
    rw [encLoop_cons]
    have hcp : codePoint 10 b = some (10, b) := by unfold codePoint; simp
    simp [hcp]
    decide
  | cons c a ih =>
    intro n h hn
    have hc := h c (by simp)
    have hm := hc.2.2
    unfold Markup at hm
    simp only [not_or] at hm
    cases n with
    | zero => omega
    | succ n =>
      rw [List.cons_append, encLoop_cons, if_neg hm.1, if_neg hm.2.1, if_neg hm.2.2.1, if_neg hm.2.2.2.1,
        if_neg hm.2.2.2.2, if_neg (by omega), ih n (fun d hd => h d (by simp [hd])) (by simp at hn; omega)]
      rfl

/-- **C42, limit.** The decoder does not know the references the encoder writes: a text with a line break
is not given back (it is cut there). -/
theorem line_break_not_given_back (a b : Bytes)
    (h : ∀ c ∈ a, 32 ≤ c.toNat ∧ c.toNat ≤ 126 ∧ ¬ Markup c) :
    xmlDecode (xmlEncode (a ++ 10 :: b)) = some a ∨ xmlDecode (xmlEncode (a ++ 10 :: b)) = none := by
  unfold xmlEncode xmlDecode
  rw [enc_newline a b (a ++ 10 :: b).length h (by rw [List.length_append, List.length_cons]; omega)]
  rcases dec_newline a (encLoop b.length b) (a ++ lit "&#x00000a;" ++ encLoop b.length b).length h
    (by simp [lit]) with e | e
  · exact Or.inl e
  · right; rw [e]; rfl

example : xmlDecode (xmlEncode (lit "first\nsecond")) = some (lit "first") := by decide

/-! ### C65: reading XML texts -/

/-- **C65, violation.** A text ending with an ampersand makes the decoder run over the end of the text. -/
theorem ampersand_at_end_overruns (a : Bytes) (h : 38 ∉ a) : xmlDecode (a ++ [38]) = none := by
  have : ∀ (a : Bytes) (n : Nat), 38 ∉ a → a.length < n → decLoop n (a ++ [38]) = none := by
    intro a
    induction a with
    | nil =>
      intro n _ hn
      cases n with
      | zero => omega
      | succ n => rfl
    | cons c a ih =>
      intro n h hn
      simp only [List.mem_cons, not_or] at h
      cases n with
      | zero => omega
      | succ n =>
        rw [List.cons_append, decLoop_cons, if_neg (fun e => h.1 e.symm), ih n h.2 (by simp at hn; omega)]
        rfl
  unfold xmlDecode
  rw [this a _ h (by simp)]
  rfl

/-- **C65, violation.** The same with a numeric reference at the end, also a correct one. -/
theorem number_at_end_overruns : xmlDecode (lit "caf&#233;") = none := by decide

/-- **C65, violation.** Digits following a numeric reference are lost. -/
theorem digits_after_reference_lost : xmlDecode (lit "&#36;100 off") = some (lit "$ off") := by decide

theorem skipRef_some : ∀ (s : Bytes), (¬ ∀ c ∈ s, refChar c = true) →
    ∃ t r, s = t ++ r ∧ skipRef s = some r := by
  intro s
  induction s with
  | nil => intro h; simp at h
  | cons c s ih =>
    intro h
    unfold skipRef
    by_cases hc : refChar c = true
    · rw [if_pos hc]
      obtain ⟨t, r, e1, e2⟩ := ih (fun hall => h (by
        intro d hd
        rcases List.mem_cons.mp hd with e | e
        · rw [e]; exact hc
        · exact hall d e))
      exact ⟨c :: t, r, by rw [e1]; rfl, e2⟩
    · rw [if_neg hc]; exact ⟨[], _, rfl, rfl⟩

/-- The dangerous endings: an ampersand, or a numeric reference. -/
def BadEnd (s : Bytes) : Prop :=
  (∃ a, s = a ++ [38]) ∨ (∃ a t, s = a ++ lit "&#" ++ t ∧ ∀ c ∈ t, isDigit c = true ∨ c = 59)

theorem startsWith_split {p s : Bytes} (h : startsWith p s = true) : s = p ++ s.drop p.length := by
  unfold startsWith at h
  rw [List.isPrefixOf_iff_prefix] at h
  obtain ⟨t, ht⟩ := h
  rw [← ht]; simp

/-- A step of the decoder outside of a dangerous ending. -/
theorem entity_some (s : Bytes) (h : ¬ BadEnd (38 :: s)) :
    ∃ out t r, entity s = some (out, r) ∧ s = t ++ r ∧ out.length ≤ t.length + 1 := by
  unfold entity
  by_cases k1 : startsWith (lit "lt;") s = true
  · rw [if_pos k1]; exact ⟨_, _, _, rfl, startsWith_split k1, by simp [lit]⟩
  rw [if_neg k1]
  by_cases k2 : startsWith (lit "gt;") s = true
  · rw [if_pos k2]; exact ⟨_, _, _, rfl, startsWith_split k2, by simp [lit]⟩
  rw [if_neg k2]
  by_cases k3 : startsWith (lit "amp;") s = true
  · rw [if_pos k3]; exact ⟨_, _, _, rfl, startsWith_split k3, by simp [lit]⟩
  rw [if_neg k3]
  by_cases k4 : startsWith (lit "apos;") s = true
  · rw [if_pos k4]; exact ⟨_, _, _, rfl, startsWith_split k4, by simp [lit]⟩
  rw [if_neg k4]
  by_cases k5 : startsWith (lit "quot;") s = true
  · rw [if_pos k5]; exact ⟨_, _, _, rfl, startsWith_split k5, by simp [lit]⟩
  rw [if_neg k5]
  cases s with
  | nil => exact absurd (Or.inl ⟨[], rfl⟩) h
  | cons c r =>
    simp only
    by_cases hc : c = 35
    · rw [if_pos hc]
      have hn : ¬ ∀ x ∈ r, refChar x = true := by
        intro hall
        apply h
        right
        refine ⟨[], r, by rw [hc]; rfl, ?_⟩
        intro x hx
        have := hall x hx
        unfold refChar at this
        simpa using this
      obtain ⟨t, r', e1, e2⟩ := skipRef_some r hn
      rw [e2]
      exact ⟨_, c :: t, r', rfl, by rw [e1]; rfl, by simp⟩
    · rw [if_neg hc]; exact ⟨_, [c], r, rfl, rfl, by simp⟩

theorem badEnd_suffix {a s : Bytes} (h : ¬ BadEnd (a ++ s)) : ¬ BadEnd s := by
  intro hb
  apply h
  rcases hb with ⟨b, e⟩ | ⟨b, t, e, ht⟩
  · exact Or.inl ⟨a ++ b, by rw [e, List.append_assoc]⟩
  · exact Or.inr ⟨a ++ b, t, by rw [e]; simp, ht⟩

theorem decLoop_safe : ∀ (n : Nat) (s : Bytes), ¬ BadEnd s →
    ∃ out, decLoop n s = some out ∧ out.length ≤ s.length := by
  intro n
  induction n with
  | zero => intro s _; exact ⟨[], rfl, by simp⟩
  | succ n ih =>
    intro s h
    cases s with
    | nil => exact ⟨[], rfl, by simp⟩
    | cons c s =>
      rw [decLoop_cons]
      by_cases hc : c = 38
      · rw [if_pos hc]
        subst hc
        obtain ⟨out, t, r, e1, e2, e3⟩ := entity_some s h
        rw [e1]
        have hr : ¬ BadEnd r := badEnd_suffix (a := 38 :: t) (by rw [List.cons_append, ← e2]; exact h)
        obtain ⟨o, p1, p2⟩ := ih r hr
        simp only
        rw [p1]
        refine ⟨_, rfl, ?_⟩
        rw [e2]
        simp only [List.length_append, List.length_cons]
        omega
      · rw [if_neg hc]
        obtain ⟨o, p1, p2⟩ := ih s (badEnd_suffix (a := [c]) h)
        rw [p1]
        exact ⟨_, rfl, by simp; exact p2⟩

theorem cstr_length : ∀ l : Bytes, (cstr l).length ≤ l.length := by
  intro l
  induction l with
  | nil => simp [cstr]
  | cons b l ih => unfold cstr; split <;> simp; exact ih

/-- **C65.** A text without a dangerous ending is decoded without leaving it, and the result is not
longer. Missing: texts with such an ending, for which the property does not hold. -/
theorem xml_decode_safe_partial (s : Bytes) (h : ¬ BadEnd s) :
    ∃ out, xmlDecode s = some out ∧ out.length ≤ s.length := by
  obtain ⟨o, p1, p2⟩ := decLoop_safe s.length s h
  refine ⟨cstr o, by unfold xmlDecode; rw [p1]; rfl, ?_⟩
  have := cstr_length o
  omega

/-- Ordinary texts are meant. -/
example : ¬ BadEnd (lit "a &lt; b &#233; c") := by
  rintro (⟨a, h⟩ | ⟨a, t, h, ht⟩)
  · have := congrArg List.getLast? h
    simp [lit] at this
  · have h1 := congrArg List.getLast? h
    cases t with
    | nil => simp [lit] at h1
    | cons x t =>
      have : (lit "a &lt; b &#233; c").getLast? = some 99 := by decide
      rw [this, List.getLast?_append, List.getLast?_eq_some_getLast (l := x :: t) (by simp)] at h1
      simp only [Option.some_or, Option.some.injEq] at h1
      have hm : (99 : UInt8) ∈ x :: t := by rw [h1]; exact List.getLast_mem _
      have := ht 99 hm
      exact absurd this (by decide)

/-- **C65, violation.** The cleaning of a description ending with an ampersand and letters runs over the
end of the text. -/
theorem att_overruns : cleanDescription (lit "Made by AT&T") = none := by decide +kernel

/-- **C65.** Removing entities is safe if every ampersand is followed by some character which cannot
belong to an entity name. Missing: the others, see `att_overruns`. -/
theorem remove_entities_safe_partial : ∀ (n : Nat) (s : Bytes),
    (∀ a t, s = a ++ 38 :: t → ∃ c ∈ t, entityChar c = false) → ∃ out, removeEntities n s = some out := by
  intro n
  induction n with
  | zero => intro s _; exact ⟨[], rfl⟩
  | succ n ih =>
    intro s h
    cases s with
    | nil => exact ⟨[], rfl⟩
    | cons c s =>
      have hs : ∀ a t, s = a ++ 38 :: t → ∃ c ∈ t, entityChar c = false :=
        fun a t e => h (c :: a) t (by rw [e]; rfl)
      rw [removeEntities]
      by_cases hc : c = 38
      · rw [if_pos hc]
        have hsk : ∀ t : Bytes, (∃ c ∈ t, entityChar c = false) → ∃ u r, t = u ++ r ∧ skipEntity t = some r := by
          intro t
          induction t with
          | nil => intro h; simp at h
          | cons x t iht =>
            intro h
            unfold skipEntity
            by_cases hx : entityChar x = true
            · rw [if_pos hx]
              obtain ⟨y, hy1, hy2⟩ := h
              have hy3 : y ∈ t := by
                rcases List.mem_cons.mp hy1 with e | e
                · rw [e, hx] at hy2; exact absurd hy2 (by decide)
                · exact e
              obtain ⟨u, r, e1, e2⟩ := iht ⟨y, hy3, hy2⟩
              exact ⟨x :: u, r, by rw [e1]; rfl, e2⟩
            · rw [if_neg hx]; exact ⟨[], _, rfl, rfl⟩
        obtain ⟨u, r, e1, e2⟩ := hsk s (h [] s (by rw [hc]; rfl))
        rw [e2]
        split
        · rename_i heq; simp at heq
        · rename_i r' heq
          simp only [Option.some.injEq] at heq
          obtain ⟨o, p⟩ := ih r' (fun a t e => hs (u ++ 59 :: a) t (by rw [e1, heq, e]; simp))
          rw [p]; exact ⟨_, rfl⟩
        · obtain ⟨o, p⟩ := ih s hs
          rw [p]; exact ⟨_, rfl⟩
      · rw [if_neg hc]
        obtain ⟨o, p⟩ := ih s hs
        rw [p]; exact ⟨_, rfl⟩

end Verif.XmlText
