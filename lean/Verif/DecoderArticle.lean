import Verif.DecoderLemmas
/-! The stages a decoder goes through while receiving an article of the built-in server. -/
namespace Verif.Decoder
open CStr
open YEnc (St run encodeBody)

/-- The article and its parameters. -/
structure Art where
  part : Nat
  fs : Nat
  off : Nat
  name : Bytes
  data : Bytes
  hname : ∀ b ∈ name, b ≠ 0 ∧ b ≠ 10 ∧ b ≠ 13
  hfs : fs < 2 ^ 63
  hoff : off + data.length + 1 < 2 ^ 63

namespace Art
variable (a : Art)

def crcv : BitVec 32 := Crc.crcOfBlocks [(0, a.data.map (·.toBitVec))]
def H1 : Bytes := ybegin a.part a.fs a.name
def H2 : Bytes := ypart a.off a.data.length
def B : Bytes := encodeBody 0 a.data
def Y : Bytes := yend a.data.length a.crcv
def Y' : Bytes := a.Y.drop 2
def E : Bytes := [46, 13, 10]
def T4 : Bytes := a.Y ++ 10 :: E
def T3 : Bytes := a.B ++ a.T4
def T2 : Bytes := a.H2 ++ 10 :: a.T3
def T1 : Bytes := a.H1 ++ 10 :: a.T2

theorem Y_eq : a.Y = 61 :: 121 :: a.Y' := by
  simp [Y, Y', yend, lit]

theorem T4_eq : a.T4 = 61 :: 121 :: (a.Y' ++ 10 :: E) := by
  simp [T4, Y_eq]

theorem serve_eq : serveArticle a.part a.fs a.off a.name a.data = a.T1 := by
  simp [serveArticle, T1, T2, T3, T4, H1, H2, B, Y, E, ybegin, ypart, yend, crcv, lit]

theorem no0 : (0 : UInt8) ∉ a.T1 := by
  simp only [T1, T2, T3, T4, List.mem_append, List.mem_cons, not_or]
  refine ⟨ybegin_no (Or.inl rfl) _ _ _ a.hname, by decide, ypart_no (Or.inl rfl) _ _, by decide,
    encodeBody_no_nul _, yend_no (Or.inl rfl) _ _, by decide, by decide⟩

/-- Decoder after the `=ybegin` line. -/
def d1 (cc : Bool) : Dec :=
  { fresh cc with format := .yenc, begin_ := true, part := true, filename := some a.name, size := a.fs }

/-- Decoder inside the body: `w` decoded so far, `st` the yEnc state. -/
def d2 (cc : Bool) (w : Bytes) (st : St) : Dec :=
  { a.d1 cc with
    body := true, beginPos := (a.off + 1 : Nat), endPos := (a.off + a.data.length : Nat)
    outSize := w.length, yst := st
    crcReg := if cc then (w.map (·.toBitVec)).foldl Crc.feedByte 0xFFFFFFFF#32 else 0xFFFFFFFF#32 }

def d3 (cc : Bool) : Dec := { a.d2 cc a.data .none with body := false }

def d4 (cc : Bool) : Dec :=
  { a.d3 cc with end_ := true, crc := true, expectedCRC := a.crcv, endSize := (a.data.length : Int) }

/-- Where the decoder is: `w` has been written, `R` is still to be received. -/
inductive Inv (cc : Bool) : Dec → Bytes → Bytes → Prop
  | s1 {p R} : p ++ R = a.T1 → (10 : UInt8) ∉ p → Inv cc { fresh cc with lineBuf := p } [] R
  | s2 {p R} : p ++ R = a.T2 → (10 : UInt8) ∉ p → Inv cc { a.d1 cc with lineBuf := p } [] R
  | s3 {b w st R} : b ++ R = a.T3 → run .crlf b [] = ⟨0, [], w, st⟩ → Inv cc (a.d2 cc w st) w R
  | s4 {p R} : p ++ R = a.T4 → (10 : UInt8) ∉ p → Inv cc { a.d3 cc with lineBuf := p } a.data R
  | s5 {p R} : p ++ R = E → (10 : UInt8) ∉ p → Inv cc { a.d4 cc with lineBuf := p } a.data R
  | s6 {R} : R = [] → Inv cc { a.d4 cc with eof := true, lineBuf := [] } a.data R

theorem head_no_nul {L R T : Bytes} (he : L ++ R = T) (h0 : (0 : UInt8) ∉ T) :
    (if L.head?.getD 0 ≠ 0 then L else []) = L := by
  cases L with
  | nil => simp
  | cons b L =>
    have : b ≠ 0 := by intro h; apply h0; rw [← he]; simp [h]
    simp [this]

theorem lineLoop_end (fuel : Nat) (d : Dec) (L : Bytes) (outlen : Nat) (buffer : Bytes)
    (h10 : (10 : UInt8) ∉ L) (h0 : (if L.head?.getD 0 ≠ 0 then L else []) = L) :
    lineLoop (fuel + 1) d L outlen buffer = some ⟨{ d with lineBuf := L }, outlen, buffer.take outlen⟩ := by
  rw [lineLoop, splitLine_none h10]
  simp only [h0]

theorem E_no0 : (0 : UInt8) ∉ E := by decide
theorem T4_no0 : (0 : UInt8) ∉ a.T4 := by
  have := a.no0; simp only [T1, T2, T3, List.mem_append, List.mem_cons, not_or] at this
  exact this.2.2.2.2.2
theorem T3_no0 : (0 : UInt8) ∉ a.T3 := by
  have := a.no0; simp only [T1, T2, List.mem_append, List.mem_cons, not_or] at this
  exact this.2.2.2.2
theorem T2_no0 : (0 : UInt8) ∉ a.T2 := by
  have := a.no0; simp only [T1, List.mem_append, List.mem_cons, not_or] at this
  exact this.2.2

theorem decodeYenc_more (d : Dec) (c rest out : Bytes) (st : St) (h : run d.yst c [] = ⟨0, rest, out, st⟩) :
    decodeYenc d c = some ({ d with
      yst := st
      crcReg := if d.crcCheck then Crc.crcSlice d.crcReg 0 (out.map (·.toBitVec)) else d.crcReg
      outSize := d.outSize + out.length }, out) := by
  unfold decodeYenc
  rw [YEnc.decodeScalar_eq, h]
  rfl

theorem decodeYenc_end (d : Dec) (c rest out : Bytes) (st : St) (h : run d.yst c [] = ⟨1, rest, out, st⟩)
    (h0 : (0 : UInt8) ∉ rest) :
    decodeYenc d c = some ({ d with
      yst := st
      lineBuf := 61 :: 121 :: rest
      body := false
      crcReg := if d.crcCheck then Crc.crcSlice d.crcReg 0 (out.map (·.toBitVec)) else d.crcReg
      outSize := d.outSize + out.length }, out) := by
  have hlb : (if rest.length > 0 then appendBuf (lit "=y") rest else lit "=y") = 61 :: 121 :: rest := by
    split
    · rw [appendBuf_eq h0]; simp [lit]
    · rename_i h
      have : rest = [] := List.length_eq_zero_iff.1 (by omega)
      simp [lit, this]
  unfold decodeYenc
  rw [YEnc.decodeScalar_eq, h]
  simp only [bind, Option.bind, endBody, ne_eq, Nat.one_ne_zero, not_false_eq_true, if_true, hlb]
  rfl

theorem lineLoop_head (fuel : Nat) (d d1 d2 : Dec) (L cur rest : Bytes) (outlen : Nat) (buffer : Bytes)
    (h1 : splitLine L = some (cur, rest)) (h2 : ¬ (L.getD 0 0 = 46 ∧ L.getD 1 0 = 13))
    (h3 : detect d L cur.length = d1) (h4 : d1.format = .yenc) (h5 : processYenc d1 L = d2)
    (h6 : d2.body = false) :
    lineLoop (fuel + 1) d L outlen buffer = lineLoop fuel d2 rest outlen buffer := by
  rw [lineLoop, h1]
  simp only [h2, if_false, h3, h4, if_true, h5, h6, Bool.false_eq_true]

theorem take_out (out buffer : Bytes) : (out ++ buffer.drop out.length).take out.length = out := by simp

theorem lineLoop_body (fuel : Nat) (d d1 d2 d3 : Dec) (L cur rest : Bytes) (outlen : Nat) (buffer out : Bytes)
    (h1 : splitLine L = some (cur, rest)) (h2 : ¬ (L.getD 0 0 = 46 ∧ L.getD 1 0 = 13))
    (h3 : detect d L cur.length = d1) (h4 : d1.format = .yenc) (h5 : processYenc d1 L = d2)
    (h6 : d2.body = true) (h7 : decodeYenc d2 rest = some (d3, out)) :
    lineLoop (fuel + 1) d L outlen buffer =
      if d3.body then some ⟨{ d3 with lineBuf := [] }, out.length, out⟩
      else lineLoop fuel d3 d3.lineBuf out.length (out ++ buffer.drop out.length) := by
  rw [lineLoop, h1]
  simp only [h2, if_false, h3, h4, if_true, h5, h6, h7, bind, Option.bind, take_out]
  rfl

theorem decodeBuffer_body (d d3 : Dec) (buf out : Bytes)
    (h4 : d.format = .yenc) (h6 : d.body = true) (h7 : decodeYenc d buf = some (d3, out)) :
    decodeBuffer d buf =
      if d3.body then some ⟨d3, out.length, out⟩
      else lineLoop (d3.lineBuf.length + 1) d3 d3.lineBuf out.length (out ++ buf.drop out.length) := by
  unfold decodeBuffer
  simp only [h4, h6, and_self, if_true, h7, bind, Option.bind, take_out]
  rfl

theorem decodeBuffer_line (d : Dec) (buf : Bytes) (h6 : d.body = false) (h0 : (0 : UInt8) ∉ buf) :
    decodeBuffer d buf =
      lineLoop ((d.lineBuf ++ buf).length + 1) { d with lineBuf := d.lineBuf ++ buf } (d.lineBuf ++ buf) 0 buf := by
  unfold decodeBuffer
  simp only [h6, Bool.false_eq_true, false_and, if_false, appendBuf_eq h0]

theorem detect_of (d : Dec) (line : Bytes) (n : Nat) (h : d.format = .yenc) : detect d line n = d := by
  unfold detect; rw [h]; rfl

/-- Stage 5: waiting for the end marker. -/
theorem loop5 (cc : Bool) (fuel : Nat) (L R : Bytes) (outlen : Nat) (buffer : Bytes) (lb : Bytes)
    (he : L ++ R = E) (hf : L.length < fuel) :
    ∃ d, lineLoop fuel { a.d4 cc with lineBuf := lb } L outlen buffer = some ⟨d, outlen, buffer.take outlen⟩
      ∧ a.Inv cc d a.data R := by
  obtain ⟨fuel, rfl⟩ : ∃ k, fuel = k + 1 := ⟨fuel - 1, by omega⟩
  by_cases h10 : (10 : UInt8) ∈ L
  · have he' : L ++ R = [46, 13] ++ 10 :: [] := he
    obtain ⟨L', h1, h2⟩ := prefix_line he' (by decide) h10
    have hL' : L' = [] := (List.append_eq_nil_iff.1 h2).1
    have hR : R = [] := (List.append_eq_nil_iff.1 h2).2
    subst hL' hR
    refine ⟨_, ?_, Inv.s6 rfl⟩
    subst h1
    rw [lineLoop]
    simp [splitLine]
  · exact ⟨_, lineLoop_end _ _ _ _ _ h10 (head_no_nul he E_no0), Inv.s5 he h10⟩

theorem not_dot (d : Dec) {L : Bytes} {x y : UInt8} {l : Bytes} (h : L = x :: y :: l) (hx : x ≠ 46) :
    ¬ (L.getD 0 0 = 46 ∧ L.getD 1 0 = 13) := by
  subst h; simp [hx]

/-- Stage 4: `=yend` line. -/
theorem loop4 (cc : Bool) (fuel : Nat) (L R : Bytes) (outlen : Nat) (buffer : Bytes) (lb : Bytes)
    (he : L ++ R = a.T4) (hf : L.length < fuel) :
    ∃ d, lineLoop fuel { a.d3 cc with lineBuf := lb } L outlen buffer = some ⟨d, outlen, buffer.take outlen⟩
      ∧ a.Inv cc d a.data R := by
  obtain ⟨fuel, rfl⟩ : ∃ k, fuel = k + 1 := ⟨fuel - 1, by omega⟩
  by_cases h10 : (10 : UInt8) ∈ L
  · obtain ⟨L', h1, h2⟩ := prefix_line he (yend_no (Or.inr rfl) _ _) h10
    have hlen : L'.length < fuel := by
      rw [h1] at hf; simp at hf; omega
    have hd : ∃ x y l, L = x :: y :: l ∧ x ≠ 46 := by
      rw [h1, Y_eq]; exact ⟨61, 121, _, rfl, by decide⟩
    obtain ⟨x, y, l, hx, hx'⟩ := hd
    have hsp : splitLine L = some (a.Y ++ [10], L') := by
      rw [h1]; exact splitLine_some _ (yend_no (Or.inl rfl) _ _) (yend_no (Or.inr rfl) _ _)
    have hproc : processYenc { a.d3 cc with lineBuf := lb } L = { a.d4 cc with lineBuf := lb } := by
      rw [h1]
      unfold Y
      rw [processYenc_yend _ _ _ _ (by have := a.hoff; omega) (by simp [d3, d2, d1])]
      rfl
    rw [lineLoop_head fuel _ _ _ L _ L' outlen buffer hsp (not_dot (a.d3 cc) hx hx')
      (detect_of { a.d3 cc with lineBuf := lb } _ _ rfl) rfl hproc rfl]
    exact a.loop5 cc fuel L' R outlen buffer lb h2 hlen
  · exact ⟨_, lineLoop_end _ _ _ _ _ h10 (head_no_nul he a.T4_no0), Inv.s4 he h10⟩

/-- Stage 3: one buffer of body data. Either the body goes on, or it is complete and the line buffer
holds the beginning of the `=yend` line. -/
theorem body_step (cc : Bool) (b c R w : Bytes) (st : St) (he : (b ++ c) ++ R = a.T3)
    (hb : run .crlf b [] = ⟨0, [], w, st⟩) (lb : Bytes) :
    (∃ out st', decodeYenc { a.d2 cc w st with lineBuf := lb } c =
        some ({ a.d2 cc (w ++ out) st' with lineBuf := lb }, out) ∧
        run .crlf (b ++ c) [] = ⟨0, [], w ++ out, st'⟩) ∨
    (∃ out L, decodeYenc { a.d2 cc w st with lineBuf := lb } c = some ({ a.d3 cc with lineBuf := L }, out) ∧
        w ++ out = a.data ∧ L ++ R = a.T4 ∧ L.length ≤ c.length + 2) := by
  have hrun : run .crlf (b ++ c) [] = { run st c [] with out := w ++ (run st c []).out } := by
    rw [YEnc.run_append, hb]
    simp only [if_true]
    exact YEnc.run_out c st w
  have hfull : run .crlf ((b ++ c) ++ R) [] = ⟨1, a.Y' ++ 10 :: E, a.data, .none⟩ := by
    rw [he]
    have := YEnc.yenc_roundtrip a.data (a.Y' ++ 10 :: E) [a.T3] (by simp [T3, T4_eq, B])
    rw [YEnc.decodeChunks_eq] at this
    simpa using this
  rw [YEnc.run_append, hrun] at hfull
  rcases hr : run st c [] with ⟨ret, rest, out, st'⟩
  rw [hr] at hfull hrun
  simp only at hfull hrun
  have hcrc : (if cc then Crc.crcSlice (a.d2 cc w st).crcReg 0 (out.map (·.toBitVec)) else (a.d2 cc w st).crcReg)
      = (a.d2 cc (w ++ out) st').crcReg := by
    cases cc <;> simp [d2, Crc.crcSlice_eq]
  have hlen : w.length + out.length = (w ++ out).length := by simp
  by_cases h0 : ret = 0
  · left
    subst h0
    have hrest : rest = [] := by
      have := YEnc.run_rest c st [] (by rw [hr]); rw [hr] at this; exact this
    subst hrest
    refine ⟨out, st', ?_, hrun⟩
    rw [decodeYenc_more { a.d2 cc w st with lineBuf := lb } c [] out st' hr]
    change some (({ a.d2 cc w st with
      lineBuf := lb, yst := st'
      crcReg := if cc then Crc.crcSlice (a.d2 cc w st).crcReg 0 (out.map (·.toBitVec)) else (a.d2 cc w st).crcReg
      outSize := w.length + out.length } : Dec), out) = _
    rw [hcrc, hlen]
    rfl
  · right
    simp only [h0, if_false, YEnc.Res.mk.injEq] at hfull
    obtain ⟨hret, hrest, hout, hst⟩ := hfull
    subst hret hst
    have hno : (0 : UInt8) ∉ rest := by
      intro h
      have h0 : (0 : UInt8) ∉ a.Y' ++ 10 :: E := by
        have := a.T4_no0; rw [T4_eq] at this
        simp only [List.mem_cons, not_or] at this; exact this.2.2
      apply h0; rw [← hrest]; simp [h]
    refine ⟨out, 61 :: 121 :: rest, ?_, hout, ?_, ?_⟩
    · rw [decodeYenc_end { a.d2 cc w st with lineBuf := lb } c rest out .none hr hno]
      change some (({ a.d2 cc w st with
        yst := .none, lineBuf := 61 :: 121 :: rest, body := false
        crcReg := if cc then Crc.crcSlice (a.d2 cc w st).crcReg 0 (out.map (·.toBitVec)) else (a.d2 cc w st).crcReg
        outSize := w.length + out.length } : Dec), out) = _
      rw [hcrc, hlen, hout]
      rfl
    · rw [T4_eq]; simp [hrest]
    · have : rest.length ≤ c.length := by
        have := YEnc.decode_in_place_safe st c ⟨1, rest, out, .none⟩ (by rw [YEnc.decodeScalar_eq, hr])
        simp only at this; omega
      simp; omega

/-- Stage 2: `=ypart` line. -/
theorem loop2 (cc : Bool) (fuel : Nat) (L R : Bytes) (buffer : Bytes) (lb : Bytes)
    (he : L ++ R = a.T2) (hf : L.length < fuel) :
    ∃ d n w, lineLoop fuel { a.d1 cc with lineBuf := lb } L 0 buffer = some ⟨d, n, w⟩
      ∧ a.Inv cc d w R := by
  obtain ⟨fuel, rfl⟩ : ∃ k, fuel = k + 1 := ⟨fuel - 1, by omega⟩
  by_cases h10 : (10 : UInt8) ∈ L
  · obtain ⟨L', h1, h2⟩ := prefix_line he (ypart_no (Or.inr rfl) _ _) h10
    have hlen : L'.length + 2 < fuel := by
      rw [h1] at hf; simp [H2, ypart, lit] at hf; omega
    have hd : ∃ x y l, L = x :: y :: l ∧ x ≠ 46 := by
      rw [h1]; exact ⟨61, 121, _, by simp [H2, ypart, lit]; rfl, by decide⟩
    obtain ⟨x, y, l, hx, hx'⟩ := hd
    have hsp : splitLine L = some (a.H2 ++ [10], L') := by
      rw [h1]; exact splitLine_some _ (ypart_no (Or.inl rfl) _ _) (ypart_no (Or.inr rfl) _ _)
    have hproc : processYenc { a.d1 cc with lineBuf := lb } L = { a.d2 cc [] .crlf with lineBuf := lb } := by
      rw [h1]
      unfold H2
      rw [processYenc_ypart _ _ _ _ a.hoff]
      cases cc <;> rfl
    rcases a.body_step cc [] L' R [] .crlf (by simpa using h2) rfl lb with ⟨out, st', hy, hrun⟩ | ⟨out, L2, hy, hout, hL2, hl⟩
    · have := lineLoop_body fuel _ _ _ _ L _ L' 0 buffer out hsp (not_dot (a.d3 cc) hx hx')
        (detect_of { a.d1 cc with lineBuf := lb } _ _ rfl) rfl hproc rfl hy
      rw [this]
      refine ⟨_, _, _, rfl, ?_⟩
      exact Inv.s3 h2 hrun
    · have := lineLoop_body fuel _ _ _ _ L _ L' 0 buffer out hsp (not_dot (a.d3 cc) hx hx')
        (detect_of { a.d1 cc with lineBuf := lb } _ _ rfl) rfl hproc rfl hy
      rw [this]
      obtain ⟨d, hd1, hd2⟩ := a.loop4 cc fuel L2 R out.length (out ++ buffer.drop out.length) L2 hL2 (by omega)
      refine ⟨d, _, _, hd1, ?_⟩
      rw [take_out]
      simp only [List.nil_append] at hout
      rw [hout]; exact hd2
  · refine ⟨_, _, _, lineLoop_end _ _ _ _ _ h10 (head_no_nul he a.T2_no0), ?_⟩
    simp only [List.take_zero]
    exact Inv.s2 he h10

/-- Stage 1: `=ybegin` line. -/
theorem loop1 (cc : Bool) (fuel : Nat) (L R : Bytes) (buffer : Bytes) (lb : Bytes)
    (he : L ++ R = a.T1) (hf : L.length < fuel) :
    ∃ d n w, lineLoop fuel { fresh cc with lineBuf := lb } L 0 buffer = some ⟨d, n, w⟩
      ∧ a.Inv cc d w R := by
  obtain ⟨fuel, rfl⟩ : ∃ k, fuel = k + 1 := ⟨fuel - 1, by omega⟩
  by_cases h10 : (10 : UInt8) ∈ L
  · obtain ⟨L', h1, h2⟩ := prefix_line he (ybegin_no (Or.inr rfl) _ _ _ a.hname) h10
    have hlen : L'.length < fuel := by
      rw [h1] at hf; simp at hf; omega
    have hd : ∃ x y l, L = x :: y :: l ∧ x ≠ 46 := by
      rw [h1]; exact ⟨61, 121, _, by simp [H1, ybegin, lit]; rfl, by decide⟩
    obtain ⟨x, y, l, hx, hx'⟩ := hd
    have hsp : splitLine L = some (a.H1 ++ [10], L') := by
      rw [h1]; exact splitLine_some _ (ybegin_no (Or.inl rfl) _ _ _ a.hname) (ybegin_no (Or.inr rfl) _ _ _ a.hname)
    have hdet : detectFormat L (a.H1 ++ [10]).length = .yenc := by
      unfold detectFormat
      have : startsWith (lit "=ybegin ") (cstr L) = true := by
        rw [h1, H1, cstr_append_of_no_nul _ (ybegin_no (Or.inl rfl) _ _ _ a.hname)]
        simp [H1, ybegin, lit, startsWith]
      simp only [this, if_true]
    have hproc : processYenc { fresh cc with lineBuf := lb, format := .yenc } L = { a.d1 cc with lineBuf := lb } := by
      rw [h1]
      unfold H1
      rw [processYenc_ybegin _ _ _ _ _ a.hname a.hfs]
      simp [d1]
    have hdet' : detect { fresh cc with lineBuf := lb } L (a.H1 ++ [10]).length =
        { fresh cc with lineBuf := lb, format := .yenc } := by
      unfold detect; rw [hdet]; rfl
    rw [lineLoop_head fuel _ _ _ L _ L' 0 buffer hsp (not_dot (a.d3 cc) hx hx') hdet' rfl hproc rfl]
    exact a.loop2 cc fuel L' R buffer lb h2 hlen
  · refine ⟨_, _, _, lineLoop_end _ _ _ _ _ h10 (head_no_nul he a.no0), ?_⟩
    simp only [List.take_zero]
    exact Inv.s1 he h10

/-- One received buffer. -/
theorem step (cc : Bool) {d : Dec} {w c R : Bytes} (h : a.Inv cc d w (c ++ R)) (hne : d.eof = false) :
    ∃ o, decodeBuffer d c = some o ∧ a.Inv cc o.dec (w ++ o.data) R := by
  have hno : ∀ {p T : Bytes}, p ++ (c ++ R) = T → (0 : UInt8) ∉ T → (0 : UInt8) ∉ c := by
    intro p T he h0 hc; apply h0; rw [← he]; simp [hc]
  cases h with
  | s6 _ => simp at hne
  | @s1 p _ he h10 =>
    rw [decodeBuffer_line _ _ rfl (hno he a.no0)]
    obtain ⟨d, n, w, h1, h2⟩ := a.loop1 cc ((p ++ c).length + 1) (p ++ c) R c (p ++ c) (by simpa using he) (by omega)
    exact ⟨_, h1, by simpa using h2⟩
  | @s2 p _ he h10 =>
    rw [decodeBuffer_line _ _ rfl (hno he a.T2_no0)]
    obtain ⟨d, n, w, h1, h2⟩ := a.loop2 cc ((p ++ c).length + 1) (p ++ c) R c (p ++ c) (by simpa using he) (by omega)
    exact ⟨_, h1, by simpa using h2⟩
  | @s3 b w st _ he hb =>
    rcases a.body_step cc b c R w st (by simpa using he) hb [] with ⟨out, st', hy, hrun⟩ | ⟨out, L2, hy, hout, hL2, hl⟩
    · have := decodeBuffer_body (a.d2 cc w st) _ c out rfl rfl hy
      rw [this]
      exact ⟨_, rfl, Inv.s3 (by simpa using he) hrun⟩
    · have := decodeBuffer_body (a.d2 cc w st) _ c out rfl rfl hy
      rw [this]
      obtain ⟨d, hd1, hd2⟩ := a.loop4 cc (L2.length + 1) L2 R out.length (out ++ c.drop out.length) L2 hL2 (by omega)
      refine ⟨_, hd1, ?_⟩
      simp only [take_out, hout]
      exact hd2
  | @s4 p _ he h10 =>
    rw [decodeBuffer_line _ _ rfl (hno he a.T4_no0)]
    obtain ⟨d, h1, h2⟩ := a.loop4 cc ((p ++ c).length + 1) (p ++ c) R 0 c (p ++ c) (by simpa using he) (by omega)
    exact ⟨_, h1, by simpa using h2⟩
  | @s5 p _ he h10 =>
    rw [decodeBuffer_line _ _ rfl (hno he E_no0)]
    obtain ⟨d, h1, h2⟩ := a.loop5 cc ((p ++ c).length + 1) (p ++ c) R 0 c (p ++ c) (by simpa using he) (by omega)
    exact ⟨_, h1, by simpa using h2⟩

/-- All remaining buffers. -/
theorem receive_all (cc : Bool) (chunks : List Bytes) : ∀ {d : Dec} {w : Bytes}, a.Inv cc d w chunks.flatten →
    receive d chunks w = some ({ a.d4 cc with eof := true, lineBuf := [] }, a.data) := by
  induction chunks with
  | nil =>
    intro d w h
    simp only [List.flatten_nil] at h
    have hend : ∀ {p T : Bytes} , p ++ [] = T → (10 : UInt8) ∉ p → (10 : UInt8) ∉ T := by
      intro p T he hp; rw [← he]; simpa using hp
    cases h with
    | s1 he h10 => exact absurd (by simp [T1]) (hend he h10)
    | s2 he h10 => exact absurd (by simp [T2]) (hend he h10)
    | s4 he h10 => exact absurd (by simp [T4]) (hend he h10)
    | s5 he h10 => exact absurd (by simp [E]) (hend he h10)
    | s6 _ => rfl
    | s3 he hb =>
      exfalso
      simp only [List.append_nil] at he
      have := YEnc.yenc_roundtrip a.data (a.Y' ++ 10 :: E) [a.T3] (by simp [T3, T4_eq, B])
      rw [YEnc.decodeChunks_eq] at this
      simp only [List.flatten_cons, List.flatten_nil, List.append_nil, Option.some.injEq] at this
      rw [← he, hb] at this
      simp at this
  | cons c cs ih =>
    intro d w h
    simp only [List.flatten_cons] at h
    unfold receive
    by_cases he : d.eof = true
    · simp only [he, if_true]
      cases h with
      | s6 _ => rfl
      | s1 _ _ => simp [fresh] at he
      | s2 _ _ => simp [d1, fresh] at he
      | s3 _ _ => simp [d2, d1, fresh] at he
      | s4 _ _ => simp [d3, d2, d1, fresh] at he
      | s5 _ _ => simp [d4, d3, d2, d1, fresh] at he
    · simp only [he, if_false, Bool.false_eq_true]
      obtain ⟨o, h1, h2⟩ := a.step cc h (by simpa using he)
      rw [h1]
      simp only [bind, Option.bind]
      exact ih h2

end Art
end Verif.Decoder
