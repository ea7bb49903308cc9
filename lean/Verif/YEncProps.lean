import Verif.YEncLemmas
/-!
Properties of the yEnc body decoder and encoder: C01, C02.
The statements use only the modelled functions `decodeScalar` (one call of the C decoder),
`decodeChunks` (consecutive calls) and `encodeBody` (the C encoder's loop).
-/
namespace Verif.YEnc

/-- C01, memory safety part: `decode_scalar` reads only bytes of its input and terminates, for every
input and every decoder state. -/
theorem decode_total (s : St) (src : List UInt8) : ∃ r, decodeScalar s src = some r :=
  ⟨_, decodeScalar_eq s src⟩

/-- C01: feeding buffers one after the other gives the same decoded bytes, the same end code, the
same unread input and the same decoder state as one call with all bytes. -/
theorem decode_chunk_independent (s : St) (chunks : List (List UInt8)) :
    decodeChunks s chunks [] = decodeScalar s chunks.flatten := by
  rw [decodeChunks_eq, decodeScalar_eq]

/-- C01: consequently two different cuttings of the same stream cannot be told apart. -/
theorem decode_cutting_irrelevant (s : St) (cs cs' : List (List UInt8)) (h : cs.flatten = cs'.flatten) :
    decodeChunks s cs [] = decodeChunks s cs' [] := by
  rw [decode_chunk_independent, decode_chunk_independent, h]

/-- C01: the decoder works in place (`*dest` starts at `*src`, Decoder.cpp:DecodeYenc); at every point
no more bytes were written than read, so unread input is never overwritten. -/
theorem decode_in_place_safe (s : St) (src : List UInt8) (r : Res) (h : decodeScalar s src = some r) :
    r.out.length + r.rest.length ≤ src.length := by
  rw [decodeScalar_eq] at h
  cases h
  suffices ∀ (l out : List UInt8) (s : St), (run s l out).out.length + (run s l out).rest.length
      ≤ out.length + l.length by simpa using this src [] s
  intro l
  induction l with
  | nil => intro out s; simp
  | cons b l ih =>
    intro out s
    rw [run]
    have hlen : (step s b).1.length ≤ 1 := by
      cases s <;> simp only [step, stepNone, stepEq] <;> (repeat' split) <;> simp
    rcases h : step s b with ⟨o, s' | ⟨code, s'⟩⟩
    · rw [h] at hlen
      have := ih (out ++ o) s'
      simp only [List.length_append, List.length_cons] at *; omega
    · rw [h] at hlen
      simp only [List.length_append, List.length_cons] at *; omega

/-- C01: the result says what was consumed: `rest` is a suffix of the input, and without an end
sequence everything is consumed. -/
theorem decode_consumes (s : St) (src : List UInt8) (r : Res) (h : decodeScalar s src = some r) :
    (∃ pre, src = pre ++ r.rest) ∧ (r.ret = 0 → r.rest = []) := by
  rw [decodeScalar_eq] at h
  cases h
  refine ⟨?_, run_rest _ _ _⟩
  suffices ∀ (l out : List UInt8) (s : St), ∃ pre, l = pre ++ (run s l out).rest from this src [] s
  intro l
  induction l with
  | nil => intro out s; exact ⟨[], rfl⟩
  | cons b l ih =>
    intro out s
    rw [run]
    rcases h : step s b with ⟨o, s' | ⟨code, s'⟩⟩
    · obtain ⟨pre, hp⟩ := ih (out ++ o) s'
      exact ⟨b :: pre, by simp only [List.cons_append]; rw [← hp]⟩
    · exact ⟨[b], rfl⟩

/-- Non-vacuity: a stream with an escaped CR, a stuffed dot and the end line, cut inside the end marker. -/
example : decodeChunks .crlf [[61, 77, 13], [10, 46], [46, 50, 13, 10], [61], [121, 101]] []
    = some ⟨1, [101], [227, 4, 8], .none⟩ := by decide

example : decodeScalar .crlf [61, 77, 13, 10, 46, 46, 50, 13, 10, 61, 121, 101]
    = some ⟨1, [101], [227, 4, 8], .none⟩ := by decide

/-- C02: every segment, encoded by the encoder and followed by a line starting with `=y` (the
`=yend` line), is decoded to itself whatever the chunking; decoding stops right after `=y`. -/
theorem yenc_roundtrip (data tail : List UInt8) (chunks : List (List UInt8))
    (h : chunks.flatten = encodeBody 0 data ++ 61 :: 121 :: tail) :
    decodeChunks .crlf chunks [] = some ⟨1, tail, data, .none⟩ := by
  rw [decodeChunks_eq, h]
  by_cases hd : data = []
  · subst hd; simp [encodeBody, run, step, EQ, DOT, LY]
  · rw [run_encode data 0 .crlf [] _ (by simp [lineState]) hd]
    simp [run, step, EQ, DOT, LY]

/-- Non-vacuity: data which needs escaping (19+42='=') and dot stuffing (4+42='.'), encoded to what
the yEnc format prescribes and decoded back from single byte chunks. -/
example : encodeBody 0 [4, 19, 65] = [46, 46, 61, 125, 107, 13, 10] := by decide
example : ((encodeBody 0 [4, 19, 65] ++ [61, 121, 101]).map (fun b => [b])).flatten
    = encodeBody 0 [4, 19, 65] ++ 61 :: 121 :: [101] := by decide
example : decodeChunks .crlf ((encodeBody 0 [4, 19, 65] ++ [61, 121, 101]).map (fun b => [b])) []
    = some ⟨1, [101], [4, 19, 65], .none⟩ := by decide

/-- C02: the encoder's lines are at most 129 characters long, and CR and LF occur only as the CRLF
at the end of a line: the encoding of a non-empty segment is a list of CR/LF free lines, each
followed by CRLF. -/
theorem yenc_lines (data : List UInt8) (hd : data ≠ []) : ∃ lines : List (List UInt8),
    encodeBody 0 data = (lines.map (· ++ [13, 10])).flatten ∧
    ∀ l ∈ lines, l ≠ [] ∧ l.length ≤ 129 ∧ (∀ b ∈ l, b ≠ 13 ∧ b ≠ 10 ∧ b ≠ 0) ∧ l ≠ [46] := by
  -- generalised over the column
  suffices H : ∀ (data : List UInt8) (n : Nat), data ≠ [] → n < 128 → ∃ (first : List UInt8) (lines : List (List UInt8)),
      encodeBody n data = first ++ [13, 10] ++ (lines.map (· ++ [13, 10])).flatten ∧
      (first ≠ [] ∧ n + first.length ≤ 129 ∧ (∀ b ∈ first, b ≠ 13 ∧ b ≠ 10 ∧ b ≠ 0) ∧ (n = 0 → first ≠ [46])) ∧
      ∀ l ∈ lines, l ≠ [] ∧ l.length ≤ 129 ∧ (∀ b ∈ l, b ≠ 13 ∧ b ≠ 10 ∧ b ≠ 0) ∧ l ≠ [46] by
    obtain ⟨f, ls, h1, ⟨h2, h2', h2'', h2'''⟩, h3⟩ := H data 0 hd (by omega)
    refine ⟨f :: ls, by simpa using h1, ?_⟩
    intro l hl
    rcases List.mem_cons.1 hl with rfl | hl
    · exact ⟨h2, by omega, h2'', h2''' rfl⟩
    · exact h3 l hl
  intro data
  induction data with
  | nil => intro n h; exact absurd rfl h
  | cons b data ih =>
    intro n _ hn
    have key : ∀ (eol : Bool) (m : Nat) (pre : List UInt8), m = n + pre.length → pre ≠ [] → m ≤ 129 →
        (∀ b ∈ pre, b ≠ 13 ∧ b ≠ 10 ∧ b ≠ 0) → (n = 0 → pre ≠ [46]) →
        (eol = false → m < 128 ∧ data ≠ []) →
        ∃ (first : List UInt8) (lines : List (List UInt8)),
        pre ++ ((if eol then [CR, LF] else []) ++ encodeBody (if eol then 0 else m) data)
          = first ++ [13, 10] ++ (lines.map (· ++ [13, 10])).flatten ∧
        (first ≠ [] ∧ n + first.length ≤ 129 ∧ (∀ b ∈ first, b ≠ 13 ∧ b ≠ 10 ∧ b ≠ 0) ∧ (n = 0 → first ≠ [46])) ∧
        ∀ l ∈ lines, l ≠ [] ∧ l.length ≤ 129 ∧ (∀ b ∈ l, b ≠ 13 ∧ b ≠ 10 ∧ b ≠ 0) ∧ l ≠ [46] := by
      intro eol m pre hm hp hm' hb hdot he
      cases eol with
      | true =>
        by_cases hd : data = []
        · subst hd
          exact ⟨pre, [], by simp [encodeBody, CR, LF], ⟨hp, by omega, hb, hdot⟩, by simp⟩
        · obtain ⟨f, ls, h1, ⟨h2, h2', h2'', h2'''⟩, h3⟩ := ih 0 hd (by omega)
          refine ⟨pre, f :: ls, by simp [h1, CR, LF], ⟨hp, by omega, hb, hdot⟩, ?_⟩
          intro l hl
          rcases List.mem_cons.1 hl with rfl | hl
          · exact ⟨h2, by omega, h2'', h2''' rfl⟩
          · exact h3 l hl
      | false =>
        obtain ⟨hm1, hd⟩ := he rfl
        obtain ⟨f, ls, h1, ⟨h2, h2', h2'', h2'''⟩, h3⟩ := ih m hd hm1
        refine ⟨pre ++ f, ls, by simp [h1], ⟨by simp [hp], by simp; omega, ?_, ?_⟩, h3⟩
        · intro b hb'
          rcases List.mem_append.1 hb' with h | h
          · exact hb b h
          · exact h2'' b h
        · intro _ h
          have := congrArg List.length h
          have hpl : 0 < pre.length := List.length_pos_iff.2 hp
          have hfl : 0 < f.length := List.length_pos_iff.2 h2
          simp at this; omega
    unfold encodeBody
    simp only
    cases hesc : mustEscape (b + 42) with
    | true =>
      simp only [if_true, show (n + 1 == 0) = false by simp, Bool.and_false, Bool.false_eq_true, if_false,
        List.append_nil]
      have := key (decide (n + 1 + 1 ≥ 128) || data.isEmpty) (n + 1 + 1) ([EQ] ++ [b + 42 + 64])
        (by simp) (by simp) (by omega) ?_ (by simp) ?_
      · simpa using this
      · have : ∀ c : UInt8, mustEscape c = true → c + 64 ≠ 13 ∧ c + 64 ≠ 10 ∧ c + 64 ≠ 0 := by
          intro c hc
          simp only [mustEscape, Bool.or_eq_true, beq_iff_eq] at hc
          rcases hc with ((((h | h) | h) | h) | h) | h <;> subst h <;> decide
        intro c hc
        simp only [List.singleton_append, List.mem_cons, List.not_mem_nil, or_false] at hc
        rcases hc with rfl | rfl
        · decide
        · exact this _ hesc
      · intro h; simp only [Bool.or_eq_false_iff, decide_eq_false_iff_not, List.isEmpty_eq_false_iff] at h
        exact ⟨by omega, h.2⟩
    | false =>
      have hb : (b + 42 ≠ 13 ∧ b + 42 ≠ 10 ∧ b + 42 ≠ 0) := by
        simp only [mustEscape, Bool.or_eq_false_iff, beq_eq_false_iff_ne] at hesc
        exact ⟨hesc.1.1.1.2, hesc.1.1.1.1.2, hesc.1.1.1.1.1⟩
      by_cases hdot : (b + 42 == DOT && n == 0) = true
      · simp only [hdot, if_true, Bool.false_eq_true, if_false, List.nil_append]
        have := key (decide (n + 1 + 1 ≥ 128) || data.isEmpty) (n + 1 + 1) ([DOT] ++ [b + 42])
          (by simp) (by simp) (by omega) ?_ (by simp) ?_
        · simpa using this
        · intro c hc
          simp only [List.singleton_append, List.mem_cons, List.not_mem_nil, or_false] at hc
          rcases hc with rfl | rfl
          · decide
          · exact hb
        · intro h; simp only [Bool.or_eq_false_iff, decide_eq_false_iff_not, List.isEmpty_eq_false_iff] at h
          exact ⟨by omega, h.2⟩
      · simp only [hdot, Bool.false_eq_true, if_false, List.nil_append]
        have := key (decide (n + 1 ≥ 128) || data.isEmpty) (n + 1) ([b + 42])
          (by simp) (by simp) (by omega) ?_ ?_ ?_
        · simpa using this
        · intro c hc
          simp only [List.mem_cons, List.not_mem_nil, or_false] at hc
          rw [hc]; exact hb
        · intro hn0 h
          apply hdot
          have : b + 42 = 46 := by simpa using h
          simp [this, hn0, DOT]
        · intro h; simp only [Bool.or_eq_false_iff, decide_eq_false_iff_not, List.isEmpty_eq_false_iff] at h
          exact ⟨by omega, h.2⟩

example : ([4, 19, 65] : List UInt8) ≠ [] := by decide

end Verif.YEnc
