import Verif.Decoder
import Verif.YEncProps
import Verif.CrcProps
/-! Helper lemmas for the article decoder. -/
namespace Verif.Decoder
open CStr
open YEnc (St run encodeBody)

/-! ### Lines -/

theorem splitLine_none {l : Bytes} (h : (10 : UInt8) ∉ l) : splitLine l = none := by
  induction l with
  | nil => rfl
  | cons b l ih =>
    simp only [List.mem_cons, not_or] at h
    simp only [splitLine, ih h.2, Ne.symm h.1, if_false]
    split <;> rfl

theorem splitLine_some {h : Bytes} (rest : Bytes) (h0 : (0 : UInt8) ∉ h) (h10 : (10 : UInt8) ∉ h) :
    splitLine (h ++ 10 :: rest) = some (h ++ [10], rest) := by
  induction h with
  | nil => simp [splitLine]
  | cons b l ih =>
    simp only [List.mem_cons, not_or] at h0 h10
    simp [splitLine, ih h0.2 h10.2, Ne.symm h0.1, Ne.symm h10.1]

/-- If a prefix of `h ++ 10 :: t` contains the newline it contains the whole first line. -/
theorem prefix_line {L R h t : Bytes} (he : L ++ R = h ++ 10 :: t) (h10 : (10 : UInt8) ∉ h)
    (hL : (10 : UInt8) ∈ L) : ∃ L', L = h ++ 10 :: L' ∧ L' ++ R = t := by
  induction h generalizing L with
  | nil =>
    cases L with
    | nil => simp at hL
    | cons b L =>
      simp only [List.cons_append, List.nil_append, List.cons.injEq] at he
      exact ⟨L, by simp [he.1], he.2⟩
  | cons a h ih =>
    cases L with
    | nil => simp at hL
    | cons b L =>
      simp only [List.cons_append, List.cons.injEq] at he
      simp only [List.mem_cons, not_or] at h10 hL
      obtain ⟨L', h1, h2⟩ := ih he.2 h10.2 (by
        rcases hL with h | h
        · exact absurd (h.trans he.1) h10.1
        · exact h)
      exact ⟨L', by simp [he.1, h1], h2⟩

theorem cstr_append_of_no_nul {l : Bytes} (r : Bytes) (h : (0 : UInt8) ∉ l) : cstr (l ++ r) = l ++ cstr r := by
  induction l with
  | nil => rfl
  | cons b l ih =>
    simp only [List.mem_cons, not_or] at h
    simp [cstr, Ne.symm h.1, ih h.2]

theorem cstr_id {l : Bytes} (h : (0 : UInt8) ∉ l) : cstr l = l := by
  have := cstr_append_of_no_nul [] h
  simpa [cstr] using this

theorem appendBuf_eq {l c : Bytes} (h : (0 : UInt8) ∉ c) : appendBuf l c = l ++ c := by
  simp [appendBuf, cstr_id h]

theorem dec_not_mem {b : UInt8} (hb : isDigit b = false) (n : Nat) : b ∉ dec n := by
  intro h
  rw [isDigit_dec n b h] at hb
  exact absurd hb (by decide)

theorem hexChar_not {b : UInt8} (hb : hexVal b = none) (v : BitVec 32) : b ∉ hex8 v := by
  intro h
  simp only [hex8, List.mem_map] at h
  obtain ⟨k, _, hk⟩ := h
  have := hexVal_hexChar (n := v.toNat / 16 ^ k % 16) (Nat.mod_lt _ (by omega))
  rw [hk, hb] at this
  exact absurd this (by simp)

/-! ### The header lines -/

def ybegin (part fs : Nat) (name : Bytes) : Bytes :=
  lit "=ybegin part=" ++ dec part ++ lit " line=128 size=" ++ dec fs ++ lit " name=" ++ name ++ [13]
def ypart (off len : Nat) : Bytes :=
  lit "=ypart begin=" ++ dec (off + 1) ++ lit " end=" ++ dec (off + len) ++ [13]
def yend (len : Nat) (crc : BitVec 32) : Bytes :=
  lit "=yend size=" ++ dec len ++ lit " part=0 pcrc32=" ++ hex8 crc ++ [13]

theorem lineText_name (name rest : Bytes) (h : ∀ b ∈ name, b ≠ 0 ∧ b ≠ 10 ∧ b ≠ 13) :
    lineText (name ++ 13 :: rest) = name := by
  unfold lineText
  induction name with
  | nil => simp
  | cons b l ih =>
    have hb := h b (by simp)
    simp only [List.cons_append, List.takeWhile_cons]
    simp only [bne_iff_ne, ne_eq, hb.1, hb.2.1, hb.2.2, not_false_eq_true, Bool.and_self, if_true,
      show (b != 0 && b != 10 && b != 13) = true by simp [hb]]
    rw [ih (fun c hc => h c (by simp [hc]))]

theorem no_nul_lit_dec {l : Bytes} (hl : (0 : UInt8) ∉ l) (n : Nat) : (0 : UInt8) ∉ l ++ dec n := by
  simp only [List.mem_append, not_or]
  exact ⟨hl, dec_not_mem (by decide) n⟩

theorem ybegin_no {c : UInt8} (hc : c = 0 ∨ c = 10) (part fs : Nat) (name : Bytes)
    (h : ∀ b ∈ name, b ≠ 0 ∧ b ≠ 10 ∧ b ≠ 13) : c ∉ ybegin part fs name := by
  simp only [ybegin, List.mem_append, not_or]
  have hn : c ∉ name := by
    intro hm; have := h c hm; rcases hc with rfl | rfl <;> simp at this
  rcases hc with rfl | rfl <;>
    exact ⟨⟨⟨⟨⟨⟨by decide, dec_not_mem (by decide) _⟩, by decide⟩, dec_not_mem (by decide) _⟩, by decide⟩, hn⟩, by decide⟩

theorem ypart_no {c : UInt8} (hc : c = 0 ∨ c = 10) (off len : Nat) : c ∉ ypart off len := by
  simp only [ypart, List.mem_append, not_or]
  rcases hc with rfl | rfl <;>
    exact ⟨⟨⟨⟨by decide, dec_not_mem (by decide) _⟩, by decide⟩, dec_not_mem (by decide) _⟩, by decide⟩

theorem yend_no {c : UInt8} (hc : c = 0 ∨ c = 10) (len : Nat) (v : BitVec 32) : c ∉ yend len v := by
  simp only [yend, List.mem_append, not_or]
  rcases hc with rfl | rfl <;>
    exact ⟨⟨⟨⟨by decide, dec_not_mem (by decide) _⟩, by decide⟩, hexChar_not (by decide) _⟩, by decide⟩

theorem processYenc_ybegin (d : Dec) (part fs : Nat) (name rest : Bytes)
    (h : ∀ b ∈ name, b ≠ 0 ∧ b ≠ 10 ∧ b ≠ 13) (hfs : fs < 2 ^ 63) :
    processYenc d (ybegin part fs name ++ 10 :: rest) =
      { d with begin_ := true, filename := some name, size := fs, part := true } := by
  have h0 : cstr (ybegin part fs name ++ 10 :: rest) = ybegin part fs name ++ 10 :: cstr rest := by
    rw [cstr_append_of_no_nul _ (ybegin_no (Or.inl rfl) part fs name h)]; simp [cstr]
  unfold processYenc
  rw [h0]
  generalize cstr rest = r
  have hs : startsWith (lit "=ybegin ") (ybegin part fs name ++ 10 :: r) = true := by
    simp [ybegin, lit, startsWith]
  have d1 : (32 : UInt8) ∉ dec part := dec_not_mem (by decide) _
  have d2 : (32 : UInt8) ∉ dec fs := dec_not_mem (by decide) _
  have hname : after (lit " name=") (ybegin part fs name ++ 10 :: r) = some (name ++ 13 :: 10 :: r) := by
    simp only [ybegin, List.append_assoc]
    simp [lit, after, startsWith, after_skip _ _ _ _ d1, after_skip _ _ _ _ d2]
  have hsize : after (lit " size=") (ybegin part fs name ++ 10 :: r) =
      some (dec fs ++ (lit " name=" ++ (name ++ 13 :: 10 :: r))) := by
    simp only [ybegin, List.append_assoc]
    simp [lit, after, startsWith, after_skip _ _ _ _ d1]
  have hpart : (after (lit " part=") (ybegin part fs name ++ 10 :: r)).isSome = true := by
    simp only [ybegin, List.append_assoc]
    simp [lit, after, startsWith]
  simp only [hs, hname, hsize, hpart, if_true]
  rw [lineText_name name _ h]
  rw [atoll_dec fs _ hfs (by simp [lit, isDigit])]
  simp

theorem processYenc_ypart (d : Dec) (off len : Nat) (rest : Bytes) (h : off + len + 1 < 2 ^ 63) :
    processYenc d (ypart off len ++ 10 :: rest) =
      { d with part := true, body := true, beginPos := (off + 1 : Nat), endPos := (off + len : Nat) } := by
  have h0 : cstr (ypart off len ++ 10 :: rest) = ypart off len ++ 10 :: cstr rest := by
    rw [cstr_append_of_no_nul _ (ypart_no (Or.inl rfl) off len)]; simp [cstr]
  unfold processYenc
  rw [h0]
  generalize cstr rest = r
  have hs1 : startsWith (lit "=ybegin ") (ypart off len ++ 10 :: r) = false := by
    simp [ypart, lit, startsWith, List.isPrefixOf]
  have hs : startsWith (lit "=ypart ") (ypart off len ++ 10 :: r) = true := by
    simp [ypart, lit, startsWith, List.isPrefixOf]
  have d1 : (32 : UInt8) ∉ dec (off + 1) := dec_not_mem (by decide) _
  have hb : after (lit " begin=") (ypart off len ++ 10 :: r) =
      some (dec (off + 1) ++ (lit " end=" ++ (dec (off + len) ++ 13 :: 10 :: r))) := by
    simp only [ypart, List.append_assoc]
    simp [lit, after, startsWith]
  have he : after (lit " end=") (ypart off len ++ 10 :: r) = some (dec (off + len) ++ 13 :: 10 :: r) := by
    simp only [ypart, List.append_assoc]
    simp [lit, after, startsWith, after_skip _ _ _ _ d1]
  simp only [hs1, hs, hb, he, if_true, Bool.false_eq_true, if_false]
  rw [atoll_dec (off + 1) _ (by omega) (by simp [lit, isDigit]),
    atoll_dec (off + len) _ (by omega) (by simp [isDigit])]

theorem processYenc_yend (d : Dec) (len : Nat) (v : BitVec 32) (rest : Bytes) (h : len < 2 ^ 63)
    (hp : d.part = true) :
    processYenc d (yend len v ++ 10 :: rest) =
      { d with end_ := true, crc := true, expectedCRC := v, endSize := (len : Int) } := by
  have h0 : cstr (yend len v ++ 10 :: rest) = yend len v ++ 10 :: cstr rest := by
    rw [cstr_append_of_no_nul _ (yend_no (Or.inl rfl) len v)]; simp [cstr]
  unfold processYenc
  rw [h0]
  generalize cstr rest = r
  have hs1 : startsWith (lit "=ybegin ") (yend len v ++ 10 :: r) = false := by
    simp [yend, lit, startsWith, List.isPrefixOf]
  have hs2 : startsWith (lit "=ypart ") (yend len v ++ 10 :: r) = false := by
    simp [yend, lit, startsWith, List.isPrefixOf]
  have hs : startsWith (lit "=yend ") (yend len v ++ 10 :: r) = true := by
    simp [yend, lit, startsWith, List.isPrefixOf]
  have d1 : (32 : UInt8) ∉ dec len := dec_not_mem (by decide) _
  have hb : after (lit " pcrc32=") (yend len v ++ 10 :: r) = some (hex8 v ++ 13 :: 10 :: r) := by
    simp only [yend, List.append_assoc]
    simp [lit, after, startsWith, after_skip _ _ _ _ d1]
  have he : after (lit " size=") (yend len v ++ 10 :: r) =
      some (dec len ++ (lit " part=0 pcrc32=" ++ (hex8 v ++ 13 :: 10 :: r))) := by
    simp only [yend, List.append_assoc]
    simp [lit, after, startsWith]
  simp only [hs1, hs2, hs, hp, hb, he, if_true, Bool.false_eq_true, if_false]
  rw [atoll_dec len _ h (by simp [lit, isDigit]), strtoul16_hex8 v _ (by simp [hexVal])]

/-! ### Encoded body contains no NUL -/

theorem encodeBody_no_nul (data : List UInt8) : (0 : UInt8) ∉ encodeBody 0 data := by
  by_cases hd : data = []
  · subst hd; simp [encodeBody]
  · obtain ⟨lines, h1, h2⟩ := YEnc.yenc_lines data hd
    rw [h1]
    simp only [List.mem_flatten, List.mem_map, not_exists, not_and]
    rintro l ⟨a, ha, rfl⟩
    simp only [List.mem_append, not_or]
    exact ⟨fun hm => (h2 a ha).2.2.1 0 hm |>.2.2 rfl, by decide⟩

end Verif.Decoder
