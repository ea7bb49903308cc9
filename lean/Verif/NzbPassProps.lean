import Verif.NzbPass
import Verif.XmlTextProps
/-
The password of an nzb-file (C144).
-/
namespace Verif.NzbPass
open CStr XmlText

/-! ### Specification -/

/-- How a password is written in XML: every character as it is or as one of the five named references; `&` and `<` only as references. -/
inductive Escaped : Bytes → Bytes → Prop
  | nil : Escaped [] []
  | plain (c : UInt8) (e p : Bytes) : c ≠ 38 → c ≠ 60 → c ≠ 0 → Escaped e p → Escaped (c :: e) (c :: p)
  | named (n : Bytes) (c : UInt8) (e p : Bytes) : Named n c → Escaped e p → Escaped (n ++ e) (c :: p)

/-- How the element with the password begins and ends. -/
def tagBefore : Bytes := lit "<meta type=\"password\">"
def tagBehind : Bytes := lit "</meta>"

/-! ### Texts -/

theorem cutText_first (p : Bytes) : ∀ (a s : Bytes), (∀ k < a.length, startsWith p ((a ++ (p ++ s)).drop k) = false) → p ≠ [] → cutText p (a ++ (p ++ s)) = some (a, s)
  | [], s, _, hp => by
    rw [List.nil_append]
    cases hq : p ++ s with
    | nil => exact absurd (List.append_eq_nil_iff.1 hq).1 hp
    | cons b t =>
      unfold cutText
      rw [← hq, if_pos (startsWith_append p s), List.drop_left]
  | b :: a, s, h, hp => by
    have h0 := h 0 (by simp)
    rw [List.drop_zero] at h0
    rw [List.cons_append] at h0 ⊢
    unfold cutText
    rw [if_neg (by rw [h0]; exact Bool.false_ne_true), cutText_first p a s (fun k hk => ?_) hp]
    · rfl
    · have := h (k + 1) (by simpa using hk)
      simpa using this

theorem cstr_keep : ∀ (a b : Bytes), (0 : UInt8) ∉ a → cstr (a ++ b) = a ++ cstr b
  | [], _, _ => rfl
  | x :: a, b, h => by
    have hx : ¬ x = 0 := fun e => h (e ▸ List.mem_cons_self)
    rw [List.cons_append, cstr, if_neg hx, cstr_keep a b (fun g => h (List.mem_cons_of_mem _ g))]
    rfl

theorem cstr_prefix : ∀ l : Bytes, cstr l <+: l
  | [] => List.prefix_refl _
  | b :: l => by
    unfold cstr
    split
    · exact List.nil_prefix
    · exact (List.cons_prefix_cons).2 ⟨rfl, cstr_prefix l⟩

theorem startsWith_mono {p a b : Bytes} (h : startsWith p a = true) (hab : a <+: b) : startsWith p b = true := by
  unfold startsWith at *
  rw [List.isPrefixOf_iff_prefix] at *
  exact h.trans hab

theorem drop_prefix {a b : Bytes} (h : a <+: b) (k : Nat) : a.drop k <+: b.drop k := by
  obtain ⟨t, rfl⟩ := h
  rw [List.drop_append]
  exact List.prefix_append _ _

theorem buffer_keeps (a b : Bytes) (h0 : (0 : UInt8) ∉ a) (hl : a.length < min (a ++ b).length 4096) :
    ∃ b', inBuffer (a ++ b) = a ++ b' ∧ b' <+: b := by
  unfold inBuffer
  rw [List.take_append, List.take_of_length_le (by omega), cstr_keep _ _ h0]
  exact ⟨_, rfl, (cstr_prefix _).trans (List.take_prefix _ _)⟩

theorem escaped_chars {e p : Bytes} (h : Escaped e p) : (60 : UInt8) ∉ e ∧ (0 : UInt8) ∉ e ∧ (0 : UInt8) ∉ p := by
  induction h with
  | nil => exact ⟨nofun, nofun, nofun⟩
  | plain c e p h1 h2 h3 _ ih =>
    refine ⟨?_, ?_, ?_⟩
    · intro g; rcases List.mem_cons.1 g with q | q
      · exact h2 q.symm
      · exact ih.1 q
    · intro g; rcases List.mem_cons.1 g with q | q
      · exact h3 q.symm
      · exact ih.2.1 q
    · intro g; rcases List.mem_cons.1 g with q | q
      · exact h3 q.symm
      · exact ih.2.2 q
  | named n c e p hn _ ih =>
    have : (60 : UInt8) ∉ n ∧ (0 : UInt8) ∉ n ∧ c ≠ 0 := by cases hn <;> decide +kernel
    refine ⟨?_, ?_, ?_⟩
    · intro g; rcases List.mem_append.1 g with q | q
      · exact this.1 q
      · exact ih.1 q
    · intro g; rcases List.mem_append.1 g with q | q
      · exact this.2.1 q
      · exact ih.2.1 q
    · intro g; rcases List.mem_cons.1 g with q | q
      · exact this.2.2 q.symm
      · exact ih.2.2 q

theorem entityZ_named {n : Bytes} {c : UInt8} (h : Named n c) (r : Bytes) : ∃ t, n = 38 :: t ∧ entityZ (t ++ r) = some ([c], r) := by
  cases h
  · exact ⟨lit "lt;", rfl, by simp [entityZ, startsWith, lit]⟩
  · exact ⟨lit "gt;", rfl, by simp [entityZ, startsWith, lit]⟩
  · exact ⟨lit "amp;", rfl, by simp [entityZ, startsWith, lit]⟩
  · exact ⟨lit "apos;", rfl, by simp [entityZ, startsWith, lit]⟩
  · exact ⟨lit "quot;", rfl, by simp [entityZ, startsWith, lit]⟩

theorem decode_escaped {e p : Bytes} (h : Escaped e p) : ∀ (n : Nat) (r : Bytes), e.length < n → decodeZ n (e ++ 0 :: r) = some p := by
  induction h with
  | nil =>
    intro n r hn
    cases n with
    | zero => exact absurd hn (by simp)
    | succ n => rfl
  | plain c e p h1 h2 h3 _ ih =>
    intro n r hn
    cases n with
    | zero => exact absurd hn (by simp)
    | succ n =>
      rw [List.cons_append, decodeZ, if_neg h3, if_neg h1, ih n r (by simpa using hn)]
      rfl
  | named m c e p hm _ ih =>
    intro n r hn
    cases n with
    | zero => exact absurd hn (by simp)
    | succ n =>
      obtain ⟨t, e1, e2⟩ := entityZ_named hm (e ++ 0 :: r)
      subst e1
      rw [List.cons_append, List.cons_append, decodeZ, if_neg (by decide), if_pos rfl, List.append_assoc, e2]
      dsimp only
      rw [ih n r (by simp at hn; omega)]
      rfl

theorem close_first (e s : Bytes) (h : (60 : UInt8) ∉ e) : cutText closeTag (e ++ (closeTag ++ s)) = some (e, s) := by
  refine cutText_first closeTag e s ?_ (by decide +kernel)
  intro k hk
  rw [List.drop_append_of_le_length (by omega)]
  cases hd : e.drop k with
  | nil => rw [List.drop_eq_nil_iff] at hd; omega
  | cons x l =>
    have hx : x ≠ 60 := fun q => h (by
      have : x ∈ e.drop k := by rw [hd]; exact List.mem_cons_self
      rw [← q]; exact List.mem_of_mem_drop this)
    rw [show closeTag = 60 :: lit "/meta>" by decide +kernel]
    unfold startsWith
    rw [List.cons_append, List.isPrefixOf_cons_cons]
    rw [show (60 == x) = false by rw [beq_eq_false_iff_ne]; exact fun q => hx q.symm]
    rfl

/-- What is in the buffer when both tags are. -/
theorem tags_found (pre e post : Bytes) (h60 : (60 : UInt8) ∉ e) (h0 : (0 : UInt8) ∉ pre ++ (openTag ++ (e ++ closeTag)))
    (hl : (pre ++ (openTag ++ (e ++ closeTag))).length < min (pre ++ (openTag ++ (e ++ closeTag)) ++ post).length 4096)
    (hf : ∀ k < pre.length, startsWith openTag ((pre ++ (openTag ++ (e ++ closeTag)) ++ post).drop k) = false) :
    ∃ post', post' <+: post ∧ readPassword (pre ++ (openTag ++ (e ++ closeTag)) ++ post) =
      (decodeZ ((e ++ (closeTag ++ post')).length + 1) (e ++ 0 :: (closeTag.tail ++ post' ++ [0]))).map (fun p => some (cstr p)) := by
  obtain ⟨b', hb, hbp⟩ := buffer_keeps _ post h0 hl
  refine ⟨b', hbp, ?_⟩
  unfold readPassword
  rw [if_neg (by intro q; rw [q] at hl; simp at hl), hb]
  have e1 : pre ++ (openTag ++ (e ++ closeTag)) ++ b' = pre ++ (openTag ++ (e ++ (closeTag ++ b'))) := by simp
  have hfirst : cutText openTag (pre ++ (openTag ++ (e ++ closeTag)) ++ b') = some (pre, e ++ (closeTag ++ b')) := by
    rw [e1]
    refine cutText_first _ _ _ ?_ (by decide +kernel)
    intro k hk
    cases hs : startsWith openTag ((pre ++ (openTag ++ (e ++ (closeTag ++ b')))).drop k) with
    | false => rfl
    | true =>
      have := startsWith_mono hs (drop_prefix (b := pre ++ (openTag ++ (e ++ closeTag)) ++ post) (by
        rw [← e1]
        obtain ⟨t, rfl⟩ := hbp
        exact ⟨t, by simp⟩) k)
      rw [hf k hk] at this; exact nomatch this
  rw [hfirst]
  dsimp only
  rw [close_first e b' h60]

theorem read_core (pre e post p : Bytes) (he : Escaped e p) (h0 : (0 : UInt8) ∉ pre)
    (hl : (pre ++ (openTag ++ (e ++ closeTag))).length < min (pre ++ (openTag ++ (e ++ closeTag)) ++ post).length 4096)
    (hf : ∀ k < pre.length, startsWith openTag ((pre ++ (openTag ++ (e ++ closeTag)) ++ post).drop k) = false) :
    readPassword (pre ++ (openTag ++ (e ++ closeTag)) ++ post) = some (some p) := by
  obtain ⟨c1, c2, c3⟩ := escaped_chars he
  obtain ⟨post', _, h⟩ := tags_found pre e post c1 (by
    intro g
    simp only [List.mem_append] at g
    rcases g with g | g | g | g
    · exact h0 g
    · exact absurd g (by decide +kernel)
    · exact c2 g
    · exact absurd g (by decide +kernel)) hl hf
  rw [h, decode_escaped he _ _ (by simp; omega)]
  show some (some (cstr p)) = _
  rw [cstr_of_no_nul (fun b hb q => c3 (q ▸ hb))]

/-- C144: if the element with the password ends within the first 4095 bytes, and before the last byte of the file, the password is exactly the text
which is written there, with all its characters, whatever follows. -/
theorem password_read_partial (pre e post p : Bytes) (he : Escaped e p) (h0 : (0 : UInt8) ∉ pre)
    (hl : (pre ++ (tagBefore ++ (e ++ tagBehind))).length < min (pre ++ (tagBefore ++ (e ++ tagBehind)) ++ post).length 4096)
    (hf : ∀ k < pre.length, startsWith tagBefore ((pre ++ (tagBefore ++ (e ++ tagBehind)) ++ post).drop k) = false) :
    readPassword (pre ++ (tagBefore ++ (e ++ tagBehind)) ++ post) = some (some p) :=
  read_core pre e post p he h0 hl hf

theorem password_left_core (file : Bytes) (hn : file ≠ []) (h : ∀ k, startsWith openTag (file.drop k) = true → 4095 < k + openTag.length) :
    readPassword file = some none := by
  have hc : ∀ s : Bytes, (∀ k, startsWith openTag (s.drop k) = false) → cutText openTag s = none := by
    intro s
    induction s with
    | nil => intro _; unfold cutText; rw [if_neg (by decide +kernel)]
    | cons b s ih =>
      intro g
      have g0 := g 0
      rw [List.drop_zero] at g0
      unfold cutText
      rw [if_neg (by rw [g0]; exact Bool.false_ne_true), ih (fun k => by have := g (k + 1); simpa using this)]
      rfl
  unfold readPassword
  rw [if_neg hn, hc]
  intro k
  cases hs : startsWith openTag ((inBuffer file).drop k) with
  | false => rfl
  | true =>
    have hpre : inBuffer file <+: file := (cstr_prefix _).trans (List.take_prefix _ _)
    have := h k (startsWith_mono hs (drop_prefix hpre k))
    have hlen : (inBuffer file).length ≤ 4095 := by
      unfold inBuffer
      have := cstr_length (file.take (min file.length 4096 - 1))
      rw [List.length_take] at this
      omega
    unfold startsWith at hs
    rw [List.isPrefixOf_iff_prefix] at hs
    have := hs.length_le
    rw [List.length_drop] at this
    have h22 : openTag.length = 22 := by decide +kernel
    omega

/-- C144: without the element in the first 4095 bytes the password is left as the XML parser has read it. -/
theorem password_left (file : Bytes) (hn : file ≠ []) (h : ∀ k, startsWith tagBefore (file.drop k) = true → 4095 < k + tagBefore.length) :
    readPassword file = some none :=
  password_left_core file hn h

/-! ### What goes wrong -/

theorem decode_plain : ∀ (a : Bytes) (n : Nat) (r : Bytes), (∀ c ∈ a, c ≠ 38 ∧ c ≠ 0) → a.length ≤ n → decodeZ n (a ++ r) = (decodeZ (n - a.length) r).map (a ++ ·)
  | [], n, r, _, _ => by simp
  | c :: a, n, r, h, hn => by
    cases n with
    | zero => exact absurd hn (by simp)
    | succ n =>
      have hc := h c List.mem_cons_self
      rw [List.cons_append, decodeZ, if_neg hc.2, if_neg hc.1, decode_plain a n r (fun x hx => h x (List.mem_cons_of_mem _ hx)) (by simpa using hn)]
      rw [show n + 1 - (c :: a).length = n - a.length by simp, Option.map_map]
      rfl

theorem number_at_end_core (a rest : Bytes) (ha : ∀ c ∈ a, c ≠ 38 ∧ c ≠ 0 ∧ c ≠ 60) (hr : ∀ c ∈ rest, c ≠ 38 ∧ c ≠ 0)
    (hl : (openTag ++ (a ++ lit "&#33;" ++ closeTag) ++ rest).length < 4096) :
    readPassword (openTag ++ (a ++ lit "&#33;" ++ closeTag) ++ (rest ++ [10])) = some (some (a ++ 33 :: (lit "/meta>" ++ rest))) := by
  have hz : (0 : UInt8) ∉ openTag ++ (a ++ lit "&#33;" ++ closeTag) ++ rest := by
    intro g
    simp only [List.mem_append] at g
    rcases g with (g | (g | g) | g) | g
    · exact absurd g (by decide +kernel)
    · exact (ha 0 g).2.1 rfl
    · exact absurd g (by decide +kernel)
    · exact absurd g (by decide +kernel)
    · exact (hr 0 g).2 rfl
  have hbuf : inBuffer (openTag ++ (a ++ lit "&#33;" ++ closeTag) ++ (rest ++ [10])) = openTag ++ (a ++ lit "&#33;" ++ closeTag) ++ rest := by
    unfold inBuffer
    rw [← List.append_assoc (openTag ++ (a ++ lit "&#33;" ++ closeTag)) rest [10]]
    generalize openTag ++ (a ++ lit "&#33;" ++ closeTag) ++ rest = x at hl hz
    have hk : min (x ++ ([10] : Bytes)).length 4096 - 1 = x.length := by
      rw [List.length_append]
      show min (x.length + 1) 4096 - 1 = x.length
      omega
    rw [hk, List.take_left]
    exact cstr_of_no_nul (fun b hb q => hz (q ▸ hb))
  unfold readPassword
  rw [if_neg (by simp), hbuf]
  have e1 : openTag ++ (a ++ lit "&#33;" ++ closeTag) ++ rest = [] ++ (openTag ++ ((a ++ lit "&#33;") ++ (closeTag ++ rest))) := by simp
  rw [e1, cutText_first openTag [] _ (fun k hk => absurd hk (by simp)) (by decide +kernel)]
  dsimp only
  rw [close_first (a ++ lit "&#33;") rest (by
    intro g
    rcases List.mem_append.1 g with g | g
    · exact (ha 60 g).2.2 rfl
    · exact absurd g (by decide +kernel))]
  dsimp only
  have ht : closeTag.tail = lit "/meta>" := by decide +kernel
  have hln : (lit "&#33;").length = 5 := by decide +kernel
  have hcl : closeTag.length = 7 := by decide +kernel
  rw [ht, List.append_assoc a (lit "&#33;") (0 :: _), decode_plain a _ _ (fun c hc => ⟨(ha c hc).1, (ha c hc).2.1⟩) (by simp; omega)]
  have hL : ∃ m, (a ++ lit "&#33;" ++ (closeTag ++ rest)).length + 1 - a.length = m + 1 ∧ rest.length + 7 ≤ m := by
    refine ⟨(lit "&#33;").length + closeTag.length + rest.length, ?_, ?_⟩
    · simp only [List.length_append]; omega
    · omega
  obtain ⟨m, hm, hm2⟩ := hL
  rw [hm, show lit "&#33;" = 38 :: lit "#33;" by decide +kernel, List.cons_append, decodeZ, if_neg (by decide), if_pos rfl]
  have hent : entityZ (lit "#33;" ++ 0 :: (lit "/meta>" ++ rest ++ [0])) = some ([33], lit "/meta>" ++ rest ++ [0]) := by
    have hat : atoll (51 :: 51 :: 59 :: 0 :: (lit "/meta>" ++ rest ++ [0])) = 33 := by
      have := atoll_dec 33 (59 :: 0 :: (lit "/meta>" ++ rest ++ [0])) (by decide) (by simp; decide)
      rw [show dec 33 = [51, 51] by decide +kernel] at this
      exact this
    rw [show lit "#33;" = [35, 51, 51, 59] by decide +kernel]
    rw [show lit "/meta>" = [47, 109, 101, 116, 97, 62] by decide +kernel] at hat ⊢
    simp only [List.cons_append, List.nil_append] at hat ⊢
    unfold entityZ
    have s1 : ∀ p ∈ [lit "lt;", lit "gt;", lit "amp;", lit "apos;", lit "quot;"], ∀ t : Bytes, startsWith p (35 :: t) = false := by
      intro p hp t
      simp only [List.mem_cons, List.not_mem_nil, or_false] at hp
      rcases hp with q | q | q | q | q <;> subst q <;> rfl
    rw [s1 _ (by simp), s1 _ (by simp), s1 _ (by simp), s1 _ (by simp), s1 _ (by simp)]
    simp only [Bool.false_eq_true, if_false, if_true]
    have hsk : skipRefZ (51 :: 51 :: 59 :: 0 :: 47 :: 109 :: 101 :: 116 :: 97 :: 62 :: (rest ++ [0])) =
        some (47 :: 109 :: 101 :: 116 :: 97 :: 62 :: (rest ++ [0])) := by
      simp [skipRefZ, refChar, isDigit]
    rw [hsk, hat]
    rfl
  rw [hent]
  dsimp only
  have hp : ∀ c ∈ lit "/meta>" ++ rest, c ≠ 38 ∧ c ≠ 0 := by
    intro c hc
    rcases List.mem_append.1 hc with g | g
    · have : ∀ c ∈ lit "/meta>", c ≠ 38 ∧ c ≠ 0 := by decide +kernel
      exact this c g
    · exact hr c g
  have hlm : (lit "/meta>" ++ rest).length < m := by
    rw [List.length_append, show (lit "/meta>").length = 6 by decide +kernel]; omega
  rw [decode_plain _ m [0] hp (by omega)]
  obtain ⟨j, hj⟩ : ∃ j, m - (lit "/meta>" ++ rest).length = j + 1 := ⟨m - (lit "/meta>" ++ rest).length - 1, by omega⟩
  rw [hj, decodeZ, if_pos rfl]
  simp only [Option.map_some, List.append_nil]
  rw [cstr_of_no_nul]
  · simp
  · intro b hb q
    subst q
    rcases List.mem_append.1 hb with g | g
    · exact (ha 0 g).2.1 rfl
    · rcases List.mem_append.1 g with g | g
      · exact absurd g (by decide)
      · exact (hp 0 g).2 rfl

/-- C144, refuted: a password which ends with a reference by number, here `&#33;` for an exclamation mark, is read together with the beginning of the file
which follows it, because the decoder passes the end of the text. -/
theorem number_at_end (a rest : Bytes) (ha : ∀ c ∈ a, c ≠ 38 ∧ c ≠ 0 ∧ c ≠ 60) (hr : ∀ c ∈ rest, c ≠ 38 ∧ c ≠ 0)
    (hl : (tagBefore ++ (a ++ lit "&#33;" ++ tagBehind) ++ rest).length < 4096) :
    readPassword (tagBefore ++ (a ++ lit "&#33;" ++ tagBehind) ++ (rest ++ [10])) = some (some (a ++ 33 :: (lit "/meta>" ++ rest))) :=
  number_at_end_core a rest ha hr hl

/-- C144: a file without a byte would let the zero be written before the buffer; such a file is no XML and is refused before. -/
theorem empty_file : readPassword [] = none := rfl

/-! ### Examples -/

example : readPassword (lit "<nzb><head><meta type=\"password\">a\tb &amp; c</meta></head></nzb>") = some (some (lit "a\tb & c")) := by decide +kernel
example : Escaped (lit "a\tb &amp; c") (lit "a\tb & c") := by
  rw [show lit "a\tb &amp; c" = 97 :: 9 :: 98 :: 32 :: (lit "&amp;" ++ [32, 99]) by decide +kernel, show lit "a\tb & c" = 97 :: 9 :: 98 :: 32 :: 38 :: [32, 99] by decide +kernel]
  exact .plain _ _ _ (by decide) (by decide) (by decide) (.plain _ _ _ (by decide) (by decide) (by decide) (.plain _ _ _ (by decide) (by decide) (by decide)
    (.plain _ _ _ (by decide) (by decide) (by decide) (.named _ _ _ _ .amp (.plain _ _ _ (by decide) (by decide) (by decide)
      (.plain _ _ _ (by decide) (by decide) (by decide) .nil))))))
example : readPassword (lit "<meta type=\"password\">wow&#33;</meta></head></nzb>\n") = some (some (lit "wow!/meta></head></nzb>")) := by decide +kernel
example : readPassword (lit "<nzb></nzb>") = some none := by decide +kernel

end Verif.NzbPass
