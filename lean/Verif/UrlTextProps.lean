import Verif.UrlText
import Verif.XmlTextProps
/-
C68: decoding of URLs. C69: file names and texts from other servers. C70: the time of feed items.
-/
namespace Verif.UrlText
open CStr XmlText

/-! ### C68: URLs -/

/-- Specification (RFC 3986, 2.1): `Pct enc dec` - `enc` is a percent-encoding of `dec`. -/
inductive Pct : Bytes → Bytes → Prop
  | nil : Pct [] []
  | plain (c e d) : c ≠ 37 → Pct e d → Pct (c :: e) (c :: d)
  | code (h l b : UInt8) (x y : Nat) (e d) : hexVal h = some x → hexVal l = some y → b.toNat = x * 16 + y →
      Pct e d → Pct (37 :: h :: l :: e) (b :: d)

/-- **C68.** A percent-encoded text (of bytes other than zero) is decoded to what it stands for. Missing:
texts with an incomplete code, for which the decoder leaves the text (`percent_at_end_overruns`). -/
theorem url_decode_partial (e d : Bytes) (h : Pct e d) (h0 : 0 ∉ d) : urlDecode e = some d := by
  have : urlLoop e = some d := by
    clear h0
    induction h with
    | nil => rfl
    | plain c e d hc _ ih =>
      rw [urlLoop.eq_def]
      simp only [hc, if_false, ih]
      rfl
    | code hh ll b x y e d h1 h2 h3 _ ih =>
      rw [urlLoop]
      simp only [if_true, ih, hexOr0, h1, h2, Option.getD_some, Option.map_some, Option.some.injEq,
        List.cons.injEq, and_true]
      apply UInt8.toNat.inj
      rw [UInt8.toNat_ofNat', h3]
      have := UInt8.toNat_lt b
      omega
  unfold urlDecode
  rw [this]
  show some (cstr d) = some d
  rw [cstr_of_no_nul]
  intro b hb e
  rw [e] at hb; exact h0 hb

example : Pct (lit "a%20b%3A") (lit "a b:") :=
  .plain 97 _ _ (by decide) (.code 50 48 32 2 0 _ _ (by decide) (by decide) (by decide)
    (.plain 98 _ _ (by decide) (.code 51 65 58 3 10 _ _ (by decide) (by decide) (by decide) .nil)))

/-- **C68, violation.** A text which ends with an incomplete code makes the decoder run over its end. -/
theorem percent_at_end_overruns (a : Bytes) (h : 37 ∉ a) :
    urlDecode (a ++ [37]) = none ∧ ∀ c, urlDecode (a ++ [37, c]) = none := by
  have : ∀ t, urlLoop t = none → urlLoop (a ++ t) = none := by
    intro t ht
    induction a with
    | nil => exact ht
    | cons c a ih =>
      simp only [List.mem_cons, not_or] at h
      rw [List.cons_append, urlLoop.eq_def]
      have hc : c ≠ 37 := fun e => h.1 e.symm
      simp only [hc, if_false, ih h.2]
      rfl
  refine ⟨?_, fun c => ?_⟩
  · unfold urlDecode; rw [this _ (by rfl)]; rfl
  · unfold urlDecode; rw [this _ (by rfl)]; rfl

theorem urlEncode_pct (s : Bytes) (h : 37 ∉ s) : Pct (urlEncode s) s := by
  induction s with
  | nil => exact .nil
  | cons c s ih =>
    simp only [List.mem_cons, not_or] at h
    unfold urlEncode
    by_cases hc : c = 32
    · rw [if_pos hc, hc]
      exact .code 50 48 32 2 0 _ _ (by decide) (by decide) (by decide) (ih h.2)
    · rw [if_neg hc]
      exact .plain c _ _ (fun e => h.1 e.symm) (ih h.2)

/-- **C68.** The address of a download: encoding it changes blanks only, and the result stands for the
same text and contains no blank. -/
theorem url_encode (s : Bytes) (h : 37 ∉ s) : Pct (urlEncode s) s ∧ 32 ∉ urlEncode s := by
  refine ⟨urlEncode_pct s h, ?_⟩
  clear h
  induction s with
  | nil => simp [urlEncode]
  | cons c s ih =>
    unfold urlEncode
    by_cases hc : c = 32
    · rw [if_pos hc]; simp [lit, ih]
    · rw [if_neg hc]; simp only [List.mem_cons, not_or]; exact ⟨fun e => hc e.symm, ih⟩

/-! ### C69: quoted file names, Latin-1 -/

/-- Specification (RFC 7230, 3.2.6): `Quoted text value` - the text between the quotes and its value. -/
inductive Quoted : Bytes → Bytes → Prop
  | nil : Quoted [] []
  | char (c t v) : c ≠ 34 → c ≠ 92 → c ≠ 0 → Quoted t v → Quoted (c :: t) (c :: v)
  | pair (c t v) : c ≠ 0 → Quoted t v → Quoted (92 :: c :: t) (c :: v)

/-- **C69.** A quoted file name without a backslash is read correctly. Missing: names with backslashes,
for which it does not hold. -/
theorem unquote_partial (t v rest : Bytes) (h : Quoted t v) (h92 : 92 ∉ t) :
    httpUnquote (34 :: t ++ 34 :: rest) = v := by
  have : unquoteLoop (t ++ 34 :: rest) = v ∧ 0 ∉ v := by
    induction h with
    | nil => exact ⟨by rw [List.nil_append, unquoteLoop.eq_def]; rfl, by simp⟩
    | char c t v h1 h2 h3 _ ih =>
      simp only [List.mem_cons, not_or] at h92
      obtain ⟨e1, e2⟩ := ih h92.2
      refine ⟨?_, ?_⟩
      · rw [List.cons_append, unquoteLoop.eq_def]
        simp only [h1, h2, if_false, e1]
      · simp only [List.mem_cons, not_or]; exact ⟨fun e => h3 e.symm, e2⟩
    | pair c t v _ _ _ => simp at h92
  show cstr (unquoteLoop (t ++ 34 :: rest)) = v
  rw [this.1, cstr_of_no_nul]
  intro b hb e
  rw [e] at hb; exact this.2 hb

example : Quoted (lit "my file.nzb") (lit "my file.nzb") := by
  repeat first | exact .nil | refine .char _ _ _ (by decide) (by decide) (by decide) ?_

/-- **C69, violation.** A quoted character is doubled, and an escaped quote ends the name. -/
theorem quoted_pair_wrong :
    Quoted (lit "a\\bc") (lit "abc") ∧ httpUnquote (lit "\"a\\bc\"") = lit "abbc" ∧
    Quoted (lit "a\\\"b") (lit "a\"b") ∧ httpUnquote (lit "\"a\\\"b\"") = lit "a\"" := by
  refine ⟨.char 97 _ _ (by decide) (by decide) (by decide) (.pair 98 _ _ (by decide)
    (.char 99 _ _ (by decide) (by decide) (by decide) .nil)), by decide,
    .char 97 _ _ (by decide) (by decide) (by decide) (.pair 34 _ _ (by decide)
    (.char 98 _ _ (by decide) (by decide) (by decide) .nil)), by decide⟩

/-- **C69.** A text in Latin-1 becomes the UTF-8 encoding of the same characters. -/
theorem latin1_to_utf8 (s : Bytes) : latin1ToUtf8 s = s.flatMap (fun c => utf8 c.toNat) := by
  induction s with
  | nil => rfl
  | cons c s ih =>
    rw [List.flatMap_cons, ← ih, latin1ToUtf8]
    have hlt := UInt8.toNat_lt c
    by_cases h : c.toNat < 128
    · rw [if_pos h]
      unfold utf8
      rw [if_pos h]
      simp
    · rw [if_neg h]
      unfold utf8
      rw [if_neg h, if_pos (show c.toNat < 2048 by omega)]
      simp only [List.cons_append, List.nil_append, List.cons.injEq, and_true]
      refine ⟨?_, by congr 1; omega⟩
      congr 1
      by_cases h2 : c.toNat > 191
      · rw [if_pos h2]; omega
      · rw [if_neg h2]; omega

/-- **C69.** It needs at most the space reserved for it. -/
theorem latin1_fits (s : Bytes) : (latin1ToUtf8 s).length ≤ s.length * 2 := by
  induction s with
  | nil => simp [latin1ToUtf8]
  | cons c s ih =>
    unfold latin1ToUtf8
    by_cases h : c.toNat < 128
    · rw [if_pos h]; simp only [List.length_cons]; omega
    · rw [if_neg h]; simp only [List.length_cons]; omega

/-! ### C70: time zones -/

/-- Specification: the seconds by which a time zone is ahead of universal time. -/
def ahead (neg : Bool) (hh mm : Nat) : Int := if neg then -((hh : Int) * 3600 + mm * 60) else hh * 3600 + mm * 60

/-- **C70.** The time of a feed item: local time minus the offset of its zone, for all zones but those less
than an hour ahead of universal time, for which it does not hold. -/
theorem zone_partial (t : Int) (neg : Bool) (hh mm : Nat) (h : neg = true ∨ 0 < hh ∨ mm = 0) :
    applyZone t (scanZone neg hh mm).1 (scanZone neg hh mm).2 = t - ahead neg hh mm := by
  unfold applyZone scanZone ahead
  cases neg with
  | true =>
    simp only [if_true]
    rw [if_neg (by omega)]
    omega
  | false =>
    simp only [Bool.false_eq_true, if_false]
    by_cases hp : (hh : Int) > 0
    · rw [if_pos hp]; omega
    · rw [if_neg hp]
      rcases h with h | h | h
      · simp at h
      · omega
      · subst h; omega

example : ahead true 6 30 = -23400 := by decide

/-- **C70, violation.** For zones less than an hour ahead the time is wrong by twice the offset. -/
theorem zone_half_hour_wrong (t : Int) (mm : Nat) (h : 0 < mm) :
    applyZone t (scanZone false 0 mm).1 (scanZone false 0 mm).2 = t - ahead false 0 mm + mm * 120 ∧
    applyZone t (scanZone false 0 mm).1 (scanZone false 0 mm).2 ≠ t - ahead false 0 mm := by
  have e : applyZone t (scanZone false 0 mm).1 (scanZone false 0 mm).2 = t - ahead false 0 mm + mm * 120 := by
    unfold applyZone scanZone ahead
    simp only [Bool.false_eq_true, if_false]
    rw [if_neg (by simp)]
    omega
  exact ⟨e, by rw [e]; omega⟩

end Verif.UrlText
