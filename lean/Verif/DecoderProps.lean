import Verif.RawLemmas
import Verif.CrcProps
/-! C05, C06, C07, C48, C49, C50: the article decoder. -/
namespace Verif.Decoder
open CStr
open Crc (crc32)

/-- Status reported and bytes handed to the writer. -/
def outcome (r : Option (Dec × Bytes)) : Option (Status × Bytes) := r.map (fun x => (check x.1, x.2))

/-- C48: an article produced by the built-in server (or any poster using the same header lines), cut
into network buffers in any way, is received completely: the bytes handed to the writer are exactly the
segment, the decoder reports success, position, size and file name are those announced, and the
announced checksum is the CRC-32 of the data and (if checking is on) equals the computed one. -/
theorem article_roundtrip (part fileSize offset : Nat) (name data : Bytes) (crcCheck : Bool)
    (hname : ∀ b ∈ name, b ≠ 0 ∧ b ≠ 10 ∧ b ≠ 13)
    (hfs : fileSize < 2 ^ 63) (hoff : offset + data.length + 1 < 2 ^ 63)
    (chunks : List Bytes) (h : chunks.flatten = serveArticle part fileSize offset name data) :
    ∃ d, receive (fresh crcCheck) chunks [] = some (d, data) ∧
      check d = .finished ∧ d.eof = true ∧ d.filename = some name ∧ d.size = fileSize ∧
      d.beginPos = offset + 1 ∧ d.endPos = offset + data.length ∧
      d.expectedCRC = crc32 (data.map (·.toBitVec)) ∧
      (crcCheck = true → calculatedCRC d = crc32 (data.map (·.toBitVec))) := by
  let a : Art := ⟨part, fileSize, offset, name, data, hname, hfs, hoff⟩
  have hinv : a.Inv crcCheck (fresh crcCheck) [] chunks.flatten := by
    have : (fresh crcCheck) = { fresh crcCheck with lineBuf := [] } := rfl
    rw [this]
    apply Art.Inv.s1
    · rw [h, List.nil_append]; exact a.serve_eq
    · simp
  have hcrc : a.crcv = crc32 (data.map (·.toBitVec)) := by
    unfold Art.crcv; rw [Crc.crc_is_crc32]; simp [a]
  have hcalc : crcCheck = true → calculatedCRC { a.d4 crcCheck with eof := true, lineBuf := [] } =
      crc32 (data.map (·.toBitVec)) := by
    intro hc; subst hc; rfl
  refine ⟨_, a.receive_all crcCheck chunks hinv, ?_, rfl, rfl, rfl, rfl, rfl, hcrc, hcalc⟩
  have hf : ({ a.d4 crcCheck with eof := true, lineBuf := [] } : Dec).format = .yenc := rfl
  rw [check, hf]
  simp only
  unfold checkYenc
  have h1 : ({ a.d4 crcCheck with eof := true, lineBuf := [] } : Dec).begin_ = true := rfl
  have h2 : ({ a.d4 crcCheck with eof := true, lineBuf := [] } : Dec).end_ = true := rfl
  have h3 : ({ a.d4 crcCheck with eof := true, lineBuf := [] } : Dec).part = true := rfl
  have h4 : ({ a.d4 crcCheck with eof := true, lineBuf := [] } : Dec).endSize = (data.length : Int) := rfl
  have h5 : ({ a.d4 crcCheck with eof := true, lineBuf := [] } : Dec).outSize = data.length := rfl
  have h6 : ({ a.d4 crcCheck with eof := true, lineBuf := [] } : Dec).expectedCRC = a.crcv := rfl
  have h7 : ({ a.d4 crcCheck with eof := true, lineBuf := [] } : Dec).crcCheck = crcCheck := rfl
  rw [h1, h2, h3, h4, h5, h6, h7]
  have : ¬ (crcCheck = true ∧ ({ a.d4 crcCheck with eof := true, lineBuf := [] } : Dec).crc = true ∧
      a.crcv ≠ calculatedCRC { a.d4 crcCheck with eof := true, lineBuf := [] }) := by
    rintro ⟨hc, -, hne⟩
    exact hne (by rw [hcrc, hcalc hc])
  rw [if_neg (by simp), if_neg (by simp), if_neg (by simp)]
  exact if_neg this

/-- The hypotheses are met, here with one byte per buffer. -/
example : ((serveArticle 2 1000 500 (lit "a b.bin") [4, 19, 65]).map (fun b => [b])).flatten
    = serveArticle 2 1000 500 (lit "a b.bin") [4, 19, 65] := by decide +kernel
example : ∀ b ∈ lit "a b.bin", b ≠ 0 ∧ b ≠ 10 ∧ b ≠ 13 := by decide
example : serveArticle 2 1000 500 (lit "a b.bin") [4, 19, 65] =
    lit "=ybegin part=2 line=128 size=1000 name=a b.bin\r\n=ypart begin=501 end=503\r\n..=}k\r\n=yend size=3 part=0 pcrc32=987c415a\r\n.\r\n" := by
  decide +kernel

/-- C50: whatever the server sends, the decoder never leaves its buffers and never loops: every call
terminates with a result. -/
theorem receive_always_terminates (crcCheck : Bool) (chunks : List Bytes) :
    ∃ r, receive (fresh crcCheck) chunks [] = some r :=
  receive_total chunks _ _ (fun _ => rfl)

example : receive (fresh true) [lit "=ybegin part", [0, 10, 10], lit ".\r\n"] [] =
    some ({ fresh true with format := .unknown, lineBuf := lit "=ybegin part" ++ [0, 0, 0] ++ lit ".\r\n"}, []) := by decide

/-- C05: a yEnc article is accepted only if its begin and end lines were seen, the decoded size is the
size announced at the end, and, for single part posts, that announced in the header; if CRC checking is
on and a CRC was announced, it is the CRC-32 of the decoded bytes `D`. What was handed to the writer is
`D` with possibly some bytes missing, and it is exactly `D` when its length is the announced size. -/
theorem accepted_article (crcCheck : Bool) (chunks : List Bytes) (d : Dec) (written : Bytes)
    (h : receive (fresh crcCheck) chunks [] = some (d, written))
    (hy : d.format = .yenc) (hc : check d = .finished) :
    d.begin_ = true ∧ d.end_ = true ∧ (d.part = false → d.size = d.endSize) ∧
    ∃ D : Bytes, d.endSize = D.length ∧
      (crcCheck = true → d.crc = true → d.expectedCRC = crc32 (D.map (·.toBitVec))) ∧
      written.Sublist D ∧ (d.endSize = written.length → written = D) := by
  obtain ⟨hb, hcc⟩ := receive_books chunks _ _ _ _ (books_fresh crcCheck) h
  obtain ⟨D, h1, h2, h3⟩ := hb (by rw [hy]; simp)
  have hcc' : d.crcCheck = crcCheck := hcc
  rw [check, hy] at hc
  simp only [checkYenc] at hc
  split at hc
  · cases hc
  rename_i hbeg
  split at hc
  · cases hc
  rename_i hend
  split at hc
  · cases hc
  rename_i hsz
  split at hc
  · cases hc
  rename_i hcrc
  simp only [Bool.not_eq_true', Bool.not_eq_false] at hbeg hend
  simp only [not_or, not_and] at hsz
  have hes : d.endSize = (D.length : Int) := by
    have := hsz.2; rw [← h2]; simpa using this
  refine ⟨hbeg, hend, ?_, D, hes, ?_, h1, ?_⟩
  · intro hp
    have := hsz.1
    simpa [hp] using this
  · intro hcheck hcrc'
    have : ¬ d.expectedCRC ≠ calculatedCRC d := fun hne => hcrc ⟨by rw [hcc', hcheck], hcrc', hne⟩
    have h4 : d.expectedCRC = calculatedCRC d := by simpa using this
    rw [h4, calculatedCRC, h3 (by rw [hcc', hcheck])]
    rfl
  · intro hl
    apply h1.eq_of_length
    rw [hes] at hl
    omega

example : (receive (fresh true) [lit "=ybegin line=128 size=1 name=x\r\nk\r\n=yend size=1 crc32=d3d99e8b\r\n.\r\n"] []).map
    (fun x => (x.1.format, check x.1, x.1.crc, x.2)) = some (.yenc, .finished, true, [65]) := by decide +kernel

/-- A wrong CRC is rejected. -/
example : outcome (receive (fresh true) [lit "=ybegin line=128 size=1 name=x\r\nk\r\n=yend size=1 crc32=d3d99e8c\r\n.\r\n"] [])
    = some (.crcError, [65]) := by decide +kernel

/-- What C05 cannot be strengthened to: an accepted article whose delivered bytes are fewer than the
decoded ones (here one byte instead of the announced two), because two yEnc sections in one buffer
overwrite each other. -/
theorem accepted_but_incomplete : ∃ chunks,
    (receive (fresh true) chunks []).map (fun x => (check x.1, x.1.crc, x.1.endSize, x.2)) =
      some (.finished, true, 2, [65]) :=
  ⟨[lit "=ybegin part=1 line=128 size=2 name=x\r\n=ypart begin=1 end=1\r\nk\r\n=ypart begin=2 end=2\r\nk\r\n=yend size=2 pcrc32=a9601dbd\r\n.\r\n"],
   by decide +kernel⟩

/-- The article decoder (unlike its incremental yEnc core, C01) does depend on how the network cut the
article: the parameter search runs into the data. The same single part article is accepted in one
cutting and rejected in another. -/
theorem article_decoder_depends_on_cutting : ∃ c1 c2 : List Bytes, c1.flatten = c2.flatten ∧
    outcome (receive (fresh true) c1 []) = some (.finished, [246, 70, 55, 72, 74, 1]) ∧
    outcome (receive (fresh true) c2 []) = some (.invalidSize, []) :=
  ⟨[lit "=ybegin line=128 size=6 name=x\r\n", lit " part=k\r\n=yend size=6\r\n.\r\n"],
   [lit "=ybegin line=128 size=6 name=x\r\n part=k\r\n=yend size=6\r\n.\r\n"], by decide +kernel⟩

/-- C06: the English claim is false: a decoder that has seen a yEnc article rejects an uuencoded one
that a new decoder accepts, since Clear() keeps the format. -/
theorem reused_decoder_differs : ∃ (first second : List Bytes),
    ((receive (fresh true) first []).bind (fun x => outcome (receive (prepare x.1 true false) second []))).map Prod.fst
      = some .noBinaryData ∧
    (outcome (receive (fresh true) second [])).map Prod.fst = some .finished :=
  ⟨[lit "=ybegin line=128 size=1 name=x\r\nk\r\n=yend size=1\r\n.\r\n"],
   [lit "begin 644 x\r\n#0V%T\r\n`\r\nend\r\n.\r\n"], by decide +kernel⟩

/-- C06, proved part: after Clear() a decoder whose previous articles were not uuencoded behaves like a
new one on every article starting with a `=ybegin ` line, for every cutting: same bytes, same status
(if no complete line arrived, both report a failure). The part missing is a change of format. -/
theorem reused_decoder_partial (old : Dec) (crcCheck : Bool) (chunks : List Bytes)
    (hold : old.format ≠ .ux) (h : lit "=ybegin " <+: chunks.flatten) :
    ∃ d1 d2 w, receive (prepare old crcCheck false) chunks [] = some (d1, w) ∧
      receive (fresh crcCheck) chunks [] = some (d2, w) ∧
      (d1 = d2 ∨ (check d1 ≠ .finished ∧ check d2 ≠ .finished ∧ d1.eof = false ∧ d2.eof = false)) := by
  obtain ⟨⟨d2, w⟩, h2⟩ := receive_always_terminates crcCheck chunks
  have hprep : prepare old crcCheck false = { fresh crcCheck with format := old.format } := rfl
  cases hf : old.format with
  | ux => exact absurd hf hold
  | unknown =>
    refine ⟨d2, d2, w, ?_, h2, Or.inl rfl⟩
    rw [hprep, hf]; exact h2
  | yenc =>
    rw [hprep, hf]
    have := receive_reuse crcCheck chunks [] [] (Or.inr ⟨List.nil_prefix, by simpa using h⟩) rfl
    rcases this with this | ⟨p', e1, e2⟩
    · exact ⟨d2, d2, w, by rw [← h2]; exact this.symm, h2, Or.inl rfl⟩
    · refine ⟨_, _, _, e2, e1, Or.inr ⟨?_, ?_, rfl, rfl⟩⟩
      · simp [check, checkYenc, fresh]
      · simp [check, fresh]

example : ({ fresh true with format := .yenc, end_ := true, outSize := 77 } : Dec).format ≠ .ux ∧
    lit "=ybegin " <+: [lit "=yb", lit "egin line=128 size=1 name=x\r\nk\r\n=yend size=1\r\n.\r\n"].flatten := by decide

/-- C07: in raw mode the end of the article is reported only if the stream contains the end marker. -/
theorem raw_eof_sound (chunks : List Bytes) (h : (receiveRaw (0, false) chunks).2 = true) :
    [13, 10, 46, 13, 10] <:+: chunks.flatten := by
  exact receiveRaw_sound chunks 0 [] (by omega) List.nil_suffix h

/-- C07, proved part of the converse: if no buffer contains a NUL byte and all buffers but the last have
at least four bytes, the marker is always found. -/
theorem raw_eof_complete_partial (chunks : List Bytes) (h0 : ∀ b ∈ chunks, (0 : UInt8) ∉ b)
    (hl : ∀ b ∈ chunks.dropLast, 4 ≤ b.length) (h : [13, 10, 46, 13, 10] <:+: chunks.flatten) :
    (receiveRaw (0, false) chunks).2 = true := by
  apply receiveRaw_complete chunks 0 [] (by omega) List.nil_suffix _ (by decide) h0 hl h
  intro j h1 h4 hs
  have := hs.length_le
  simp [term] at this
  omega

example : (∀ b ∈ [lit "text\r\n.", lit "\r\n"], (0 : UInt8) ∉ b) ∧ (∀ b ∈ [lit "text\r\n.", lit "\r\n"].dropLast, 4 ≤ b.length) ∧
    [13, 10, 46, 13, 10] <:+: [lit "text\r\n.", lit "\r\n"].flatten :=
  ⟨by decide, by decide, lit "text", [], rfl⟩

/-- C07: the English claim is false: a marker cut into three pieces is missed, although the same stream
in two pieces is recognised. -/
theorem raw_eof_depends_on_cutting : ∃ c1 c2 : List Bytes, c1.flatten = c2.flatten ∧
    (receiveRaw (0, false) c1).2 = true ∧ (receiveRaw (0, false) c2).2 = false :=
  ⟨[lit "text\r\n", lit ".\r\n"], [lit "text\r\n", lit ".", lit "\r\n"], by decide⟩

/-- And a NUL byte in front of it hides the marker. -/
theorem raw_eof_hidden_by_nul : ∃ c : Bytes, [13, 10, 46, 13, 10] <:+: c ∧ (receiveRaw (0, false) [c]).2 = false :=
  ⟨[65, 0, 13, 10, 46, 13, 10], ⟨[65, 0], [], rfl⟩, by decide⟩

/-! ### uuencoded articles -/

/-- Specification of uuencoding: six bits to a character. -/
def uuEncChar (n : Nat) : UInt8 := if n = 0 then 96 else UInt8.ofNat (n + 32)

/-- Three bytes to four characters. -/
def uuEncData : Bytes → Bytes
  | [] => []
  | [a] => [uuEncChar (a.toNat / 4), uuEncChar (a.toNat % 4 * 16), uuEncChar 0, uuEncChar 0]
  | [a, b] => [uuEncChar (a.toNat / 4), uuEncChar (a.toNat % 4 * 16 + b.toNat / 16), uuEncChar (b.toNat % 16 * 4), uuEncChar 0]
  | a :: b :: c :: l => uuEncChar (a.toNat / 4) :: uuEncChar (a.toNat % 4 * 16 + b.toNat / 16) ::
      uuEncChar (b.toNat % 16 * 4 + c.toNat / 64) :: uuEncChar (c.toNat % 64) :: uuEncData l

/-- An article with one uuencoded line (up to 45 bytes of data). -/
def uuArticle (name data : Bytes) : Bytes :=
  lit "begin 644 " ++ name ++ lit "\r\n" ++ (uuEncChar data.length :: uuEncData data) ++ lit "\r\n`\r\nend\r\n.\r\n"

/-- C49: the English claim ("an uuencoded article is decoded to its data") is false: for the article
with the three bytes "Cat" the bytes handed to the writer are "beg", the first bytes of the received
buffer, and the article is accepted. -/
theorem uu_article_not_decoded :
    outcome (receive (fresh true) [uuArticle (lit "a") (lit "Cat")] []) = some (.finished, lit "beg") := by
  decide +kernel

theorem uu_o0 : ∀ a < 256, UInt8.ofNat (a / 4 * 4 ||| a % 4) = UInt8.ofNat a := by decide +kernel
theorem uu_o1 : ∀ p < 4, ∀ b < 256, UInt8.ofNat ((p * 16 + b / 16) * 16 ||| b % 16) = UInt8.ofNat b := by decide +kernel
theorem uu_o2 : ∀ p < 16, ∀ c < 256, UInt8.ofNat ((p * 4 + c / 64) * 64 ||| c % 64) = UInt8.ofNat c := by decide +kernel

/-- The decoding step itself is correct: it produces the data of every line of up to 45 bytes, but into
the line buffer. -/
theorem uuLoop_encode (data rest : Bytes) (fuel : Nat) (hf : data.length < fuel) :
    uuLoop fuel (uuEncData data ++ rest) data.length = data := by
  have key : ∀ n, n < 64 → uuChar (uuEncChar n) = n := by decide
  induction data using uuEncData.induct generalizing fuel rest with
  | case1 => cases fuel <;> simp [uuLoop, uuEncData]
  | case2 a =>
    obtain ⟨f, rfl⟩ : ∃ f, fuel = f + 1 := ⟨fuel - 1, by omega⟩
    simp only [uuLoop, uuEncData, List.length_cons, List.length_nil, List.cons_append, List.getD_cons_zero, List.getD_cons_succ]
    rw [key _ (by have := a.toNat_lt; omega), key _ (by omega)]
    rw [show (a.toNat % 4 * 16) / 16 = a.toNat % 4 by omega]
    have k1 := uu_o0 a.toNat a.toNat_lt
    simp [k1]
  | case3 a b =>
    obtain ⟨f, rfl⟩ : ∃ f, fuel = f + 1 := ⟨fuel - 1, by omega⟩
    have hb := b.toNat_lt
    have ha := a.toNat_lt
    simp only [uuLoop, uuEncData, List.length_cons, List.length_nil, List.cons_append, List.getD_cons_zero, List.getD_cons_succ]
    rw [key _ (by omega), key _ (by omega), key _ (by omega)]
    rw [show (a.toNat % 4 * 16 + b.toNat / 16) / 16 = a.toNat % 4 by omega]
    rw [show (b.toNat % 16 * 4) / 4 = b.toNat % 16 by omega]
    have k1 := uu_o0 a.toNat ha
    have k2 := uu_o1 (a.toNat % 4) (by omega) b.toNat hb
    simp [k1, k2]
  | case4 a b c l ih =>
    obtain ⟨f, rfl⟩ : ∃ f, fuel = f + 1 := ⟨fuel - 1, by omega⟩
    have hb := b.toNat_lt
    have ha := a.toNat_lt
    have hc := c.toNat_lt
    simp only [List.length_cons] at hf
    simp only [uuLoop, uuEncData, List.length_cons, List.cons_append, List.getD_cons_zero, List.getD_cons_succ]
    rw [key _ (by omega), key _ (by omega), key _ (by omega), key _ (by omega)]
    rw [show (a.toNat % 4 * 16 + b.toNat / 16) / 16 = a.toNat % 4 by omega]
    rw [show (b.toNat % 16 * 4 + c.toNat / 64) / 4 = b.toNat % 16 by omega]
    have k1 := uu_o0 a.toNat ha
    have k2 := uu_o1 (a.toNat % 4) (by omega) b.toNat hb
    have k3 := uu_o2 (b.toNat % 16) (by omega) c.toNat hc
    have := ih rest f (by omega)
    simp [k1, k2, k3, this]

end Verif.Decoder
