import Verif.DecoderArticle
/-! Invariants of the article decoder over arbitrary input buffers. -/
namespace Verif.Decoder
open CStr
open YEnc (St run)

/-- Decoder parts that `processYenc` and `detect` leave alone. -/
structure SameOut (d d' : Dec) : Prop where
  outSize : d'.outSize = d.outSize
  crcReg : d'.crcReg = d.crcReg
  crcCheck : d'.crcCheck = d.crcCheck
  eof : d'.eof = d.eof
  yst : d'.yst = d.yst

theorem processYenc_same (d : Dec) (t : Bytes) : SameOut d (processYenc d t) ∧ (processYenc d t).format = d.format := by
  unfold processYenc
  simp only
  repeat' split
  all_goals exact ⟨⟨rfl, rfl, rfl, rfl, rfl⟩, rfl⟩

theorem detect_same (d : Dec) (t : Bytes) (n : Nat) : SameOut d (detect d t n) ∧ (detect d t n).body = d.body := by
  unfold detect
  split
  all_goals exact ⟨⟨rfl, rfl, rfl, rfl, rfl⟩, rfl⟩

theorem decodeUx_same (d : Dec) (t : Bytes) (n : Nat) : (decodeUx d t n).1.format = d.format := by
  unfold decodeUx
  simp only
  repeat' split
  all_goals rfl

/-- `D` is what was decoded from yEnc data so far, `W` what was handed to the writer. -/
def Books (d : Dec) (W : Bytes) : Prop :=
  d.format ≠ .ux → ∃ D : Bytes, W.Sublist D ∧ d.outSize = D.length ∧
    (d.crcCheck = true → d.crcReg = (D.map (·.toBitVec)).foldl Crc.feedByte 0xFFFFFFFF#32)

theorem cstr_prefix (l : Bytes) : cstr l <+: l := by
  induction l with
  | nil => exact List.prefix_refl _
  | cons b l ih =>
    rw [cstr]
    split
    · exact List.nil_prefix
    · exact (List.prefix_cons_inj b).2 ih

theorem receive_step (d : Dec) (b : Bytes) (bs : List Bytes) (w : Bytes) (h : d.eof = false) :
    receive d (b :: bs) w = (decodeBuffer d b).bind (fun o => receive o.dec bs (w ++ o.data)) := by
  rw [receive, h]; rfl

theorem decodeYenc_some (d : Dec) (c : Bytes) : ∃ d' out, decodeYenc d c = some (d', out) ∧
    d'.format = d.format ∧ d'.crcCheck = d.crcCheck ∧ d'.outSize = d.outSize + out.length ∧ d'.eof = d.eof ∧
    (d.crcCheck = true → d'.crcReg = (out.map (·.toBitVec)).foldl Crc.feedByte d.crcReg) ∧
    (d'.body = false ∨ d'.body = d.body) ∧
    ((run d.yst c []).ret ≠ 0 → d'.body = false ∧ d'.lineBuf.length ≤ c.length + 3) ∧
    ((run d.yst c []).ret = 0 → d'.body = d.body) := by
  unfold decodeYenc
  rw [YEnc.decodeScalar_eq]
  refine ⟨_, _, rfl, ?_⟩
  have hl : (run d.yst c []).rest.length ≤ c.length := by
    have := YEnc.decode_in_place_safe d.yst c _ (YEnc.decodeScalar_eq d.yst c)
    omega
  generalize run d.yst c [] = r at *
  unfold endBody countOut
  simp only
  have hab : ∀ l : Bytes, (appendBuf l r.rest).length = l.length + r.rest.length := by
    intro l
    have : (cstr r.rest).length ≤ r.rest.length := by
      exact (cstr_prefix _).length_le
    simp only [appendBuf, List.length_append, List.length_replicate]; omega
  by_cases h : r.ret = 0
  · simp only [h, ne_eq, not_true_eq_false, if_false, true_and, or_true, false_implies, implies_true, and_true]
    intro hc; simp only [hc, if_true, Crc.crcSlice_eq]
  · simp only [h, ne_eq, not_false_eq_true, if_true, true_and, true_or, false_implies, true_implies, and_true]
    refine ⟨?_, ?_⟩
    · intro hc; simp only [hc, if_true, Crc.crcSlice_eq]
    · have h1 : (if r.ret = 1 then lit "=y" else lit ".\r\n").length ≤ 3 := by split <;> decide
      split
      · rw [hab]; omega
      · omega

theorem Books.decode {d d' : Dec} {written W out : Bytes} (h : Books d W) (hw : written.Sublist W)
    (h1 : d'.format = d.format) (h2 : d'.crcCheck = d.crcCheck) (h3 : d'.outSize = d.outSize + out.length)
    (h4 : d.crcCheck = true → d'.crcReg = (out.map (·.toBitVec)).foldl Crc.feedByte d.crcReg) :
    Books d' (written ++ out) := by
  intro hf
  rw [h1] at hf
  obtain ⟨D, hs, hl, hc⟩ := h hf
  refine ⟨D ++ out, (hw.trans hs).append_right out, by simp [h3, hl], ?_⟩
  intro hcc
  rw [h2] at hcc
  rw [h4 hcc, hc hcc]
  simp

theorem Books.same {d d' : Dec} {W : Bytes} (h : Books d W) (hs : SameOut d d') (hf : d'.format ≠ .ux → d.format ≠ .ux) :
    Books d' W := by
  intro hu
  obtain ⟨D, h1, h2, h3⟩ := h (hf hu)
  exact ⟨D, h1, by rw [hs.outSize]; exact h2, by rw [hs.crcCheck, hs.crcReg]; exact h3⟩

theorem sublist_take (written buffer : Bytes) (n : Nat) : written.Sublist (written ++ buffer.take n) :=
  List.sublist_append_left _ _

theorem lineLoop_books (fuel : Nat) : ∀ (d : Dec) (line : Bytes) (outlen : Nat) (buffer written : Bytes) (o : Out),
    Books d (written ++ buffer.take outlen) → lineLoop fuel d line outlen buffer = some o →
    Books o.dec (written ++ o.data) ∧ o.dec.crcCheck = d.crcCheck := by
  induction fuel with
  | zero => intro d line outlen buffer written o _ h; simp [lineLoop] at h
  | succ fuel ih =>
    intro d line outlen buffer written o hB h
    rw [lineLoop] at h
    cases hsp : splitLine line with
    | none =>
      rw [hsp] at h
      simp only [Option.some.injEq] at h
      subst h
      exact ⟨hB, rfl⟩
    | some cr =>
      obtain ⟨cur, rest⟩ := cr
      rw [hsp] at h
      simp only at h
      split at h
      · simp only [Option.some.injEq] at h
        subst h
        exact ⟨hB, rfl⟩
      · have hs := (detect_same d line cur.length).1
        have hfmt : (detect d line cur.length).format ≠ .ux → d.format ≠ .ux := by
          unfold detect; split
          · rename_i hh; rw [hh]; simp
          · exact id
        have hB1 : Books (detect d line cur.length) (written ++ buffer.take outlen) := hB.same hs hfmt
        split at h
        · have hp := processYenc_same (detect d line cur.length) line
          have hB2 := hB1.same hp.1 (by rw [hp.2]; exact id)
          have hcc : (processYenc (detect d line cur.length) line).crcCheck = d.crcCheck := by
            rw [hp.1.crcCheck, hs.crcCheck]
          generalize processYenc (detect d line cur.length) line = d2 at *
          split at h
          · obtain ⟨d', out, hd, h1, h2, h3, -, h4, -, -, -⟩ := decodeYenc_some d2 rest
            rw [hd] at h
            simp only [bind, Option.bind] at h
            have hB3 := hB2.decode (written := written) (sublist_take _ _ _) h1 h2 h3 h4
            split at h
            · simp only [pure, Option.some.injEq] at h
              subst h
              refine ⟨?_, by show d'.crcCheck = _; rw [h2, hcc]⟩
              simp only [Art.take_out]
              exact hB3
            · have := ih d' d'.lineBuf out.length _ written o (by rw [Art.take_out]; exact hB3) h
              exact ⟨this.1, by rw [this.2, h2, hcc]⟩
          · have := ih d2 rest outlen buffer written o hB2 h
            exact ⟨this.1, by rw [this.2, hcc]⟩
        · split at h
          · rename_i hux
            have hf := decodeUx_same (detect d line cur.length) line cur.length
            rw [hux] at hf
            have hcc : (decodeUx (detect d line cur.length) line cur.length).1.crcCheck = d.crcCheck := by
              rw [← hs.crcCheck]
              unfold decodeUx; simp only; repeat' split
              all_goals rfl
            generalize hq : decodeUx (detect d line cur.length) line cur.length = q at *
            have := ih q.1 rest _ buffer written o (fun hn => absurd hf hn) h
            exact ⟨this.1, by rw [this.2, hcc]⟩
          · have := ih _ rest outlen buffer written o hB1 h
            exact ⟨this.1, by rw [this.2, hs.crcCheck]⟩

theorem decodeBuffer_books (d : Dec) (buf written : Bytes) (o : Out) (hB : Books d written)
    (h : decodeBuffer d buf = some o) : Books o.dec (written ++ o.data) ∧ o.dec.crcCheck = d.crcCheck := by
  unfold decodeBuffer at h
  split at h
  · obtain ⟨d', out, hd, h1, h2, h3, -, h4, -, -, -⟩ := decodeYenc_some d buf
    rw [hd] at h
    simp only [bind, Option.bind] at h
    have hB3 := hB.decode (List.Sublist.refl _) h1 h2 h3 h4
    split at h
    · simp only [pure, Option.some.injEq] at h
      subst h
      simp only [Art.take_out]
      exact ⟨hB3, h2⟩
    · have := lineLoop_books _ d' d'.lineBuf out.length _ written o (by rw [Art.take_out]; exact hB3) h
      exact ⟨this.1, by rw [this.2, h2]⟩
  · have := lineLoop_books _ _ _ 0 buf written o (by simp only [List.take_zero, List.append_nil]; exact hB) h
    exact this

theorem receive_books (bufs : List Bytes) : ∀ (d : Dec) (written : Bytes) (d' : Dec) (W : Bytes), Books d written →
    receive d bufs written = some (d', W) → Books d' W ∧ d'.crcCheck = d.crcCheck := by
  induction bufs with
  | nil =>
    intro d written d' W hB h
    simp only [receive, Option.some.injEq, Prod.mk.injEq] at h
    obtain ⟨rfl, rfl⟩ := h
    exact ⟨hB, rfl⟩
  | cons b bs ih =>
    intro d written d' W hB h
    rw [receive] at h
    split at h
    · simp only [Option.some.injEq, Prod.mk.injEq] at h
      obtain ⟨rfl, rfl⟩ := h
      exact ⟨hB, rfl⟩
    · cases hd : decodeBuffer d b with
      | none => rw [hd] at h; simp [bind, Option.bind] at h
      | some o =>
        rw [hd] at h
        simp only [bind, Option.bind] at h
        have h1 := decodeBuffer_books d b written o hB hd
        have h2 := ih _ _ _ _ h1.1 h
        exact ⟨h2.1, by rw [h2.2, h1.2]⟩

theorem books_fresh (cc : Bool) : Books (fresh cc) [] := fun _ => ⟨[], List.Sublist.refl _, rfl, fun _ => rfl⟩

/-! ### Totality -/

theorem splitLine_eq {l cur rest : Bytes} (h : splitLine l = some (cur, rest)) :
    l = cur ++ rest ∧ ∃ c, cur = c ++ [10] ∧ (10 : UInt8) ∉ c := by
  induction l generalizing cur rest with
  | nil => simp [splitLine] at h
  | cons b l ih =>
    rw [splitLine] at h
    split at h
    · simp at h
    · split at h
      · rename_i _ hb
        simp only [Option.some.injEq, Prod.mk.injEq] at h
        obtain ⟨rfl, rfl⟩ := h
        exact ⟨by simp [hb], [], by simp, by simp⟩
      · rename_i _ hb
        cases hs : splitLine l with
        | none => rw [hs] at h; simp at h
        | some xy =>
          rw [hs] at h
          simp only [Option.some.injEq, Prod.mk.injEq] at h
          obtain ⟨rfl, rfl⟩ := h
          obtain ⟨h1, c, h2, h3⟩ := ih hs
          refine ⟨by rw [List.cons_append, ← h1], b :: c, by simp [h2], ?_⟩
          simp only [List.mem_cons, not_or]
          exact ⟨fun h => hb h.symm, h3⟩

/-- A line starting with a fixed text without LF is longer than this text. -/
theorem line_len {l cur rest p : Bytes} (h : splitLine l = some (cur, rest)) (hp : (10 : UInt8) ∉ p)
    (hs : startsWith p (cstr l) = true) : p.length < cur.length := by
  obtain ⟨h1, c, h2, h3⟩ := splitLine_eq h
  have hpre : p <+: l := by
    have : p <+: cstr l := List.isPrefixOf_iff_prefix.1 hs
    exact this.trans (cstr_prefix _)
  obtain ⟨t, ht⟩ := hpre
  apply Nat.lt_of_not_le
  intro hlt
  have hc : cur.length ≤ p.length := by omega
  have : cur <+: p := by
    apply List.prefix_of_prefix_length_le (l₃ := l) ⟨rest, h1.symm⟩ ⟨t, ht⟩ hc
  obtain ⟨u, hu⟩ := this
  apply hp
  rw [← hu, h2]; simp

/-- Outside of uuencoded articles the decoder is not in the body when the line loop starts. -/
def LineMode (d : Dec) : Prop := d.format ≠ .ux → d.body = false

theorem processYenc_body (d : Dec) (t : Bytes) (h : d.body = false) (h' : (processYenc d t).body = true) :
    startsWith (lit "=ybegin ") (cstr t) = true ∨ startsWith (lit "=ypart ") (cstr t) = true := by
  by_cases h1 : startsWith (lit "=ybegin ") (cstr t) = true
  · exact Or.inl h1
  by_cases h2 : startsWith (lit "=ypart ") (cstr t) = true
  · exact Or.inr h2
  exfalso
  unfold processYenc at h'
  simp only [h1, h2, if_false, Bool.false_eq_true] at h'
  revert h'
  repeat' split
  all_goals simp [h]

theorem lineLoop_total (fuel : Nat) : ∀ (d : Dec) (line : Bytes) (outlen : Nat) (buffer : Bytes),
    LineMode d → line.length < fuel → ∃ o, lineLoop fuel d line outlen buffer = some o ∧
      ((o.dec.format = .unknown → o.dec.body = false)) := by
  induction fuel with
  | zero => intro d line _ _ _ h; omega
  | succ fuel ih =>
    intro d line outlen buffer hm hl
    rw [lineLoop]
    cases hsp : splitLine line with
    | none => exact ⟨_, rfl, fun h => hm (by simp only at h; rw [h]; simp)⟩
    | some cr =>
      obtain ⟨cur, rest⟩ := cr
      simp only
      split
      · exact ⟨_, rfl, fun h => hm (by simp only at h; rw [h]; simp)⟩
      · obtain ⟨hsplit, c, hc, -⟩ := splitLine_eq hsp
        have hlen : line.length = cur.length + rest.length := by rw [hsplit]; simp
        have hcl : 1 ≤ cur.length := by rw [hc]; simp
        have hm1 : LineMode (detect d line cur.length) := by
          intro hh
          rw [(detect_same d line cur.length).2]
          apply hm
          revert hh; unfold detect; split
          · rename_i hu; rw [hu]; simp
          · exact id
        split
        · rename_i hy
          have hb1 : (detect d line cur.length).body = false := hm1 (by rw [hy]; simp)
          have hpb := processYenc_body _ line hb1
          have hpf := (processYenc_same (detect d line cur.length) line).2
          rw [hy] at hpf
          generalize processYenc (detect d line cur.length) line = d2 at *
          split
          · rename_i hb2
            obtain ⟨d', out, hd, h1, -, -, -, -, -, h5, h6⟩ := decodeYenc_some d2 rest
            rw [hd]
            simp only [bind, Option.bind]
            have hcur : 7 < cur.length := by
              rcases hpb hb2 with h | h
              · have := line_len hsp (by decide) h; simp [lit] at this; omega
              · have := line_len hsp (by decide) h; simpa [lit] using this
            split
            · exact ⟨_, rfl, fun h => by simp only [h1, hpf] at h; cases h⟩
            · rename_i hb3
              by_cases hr : (run d2.yst rest []).ret = 0
              · have := h6 hr; rw [hb2] at this; exact absurd this hb3
              · exact ih d' d'.lineBuf out.length _ (fun _ => (h5 hr).1) (by have := (h5 hr).2; omega)
          · rename_i hb2
            exact ih d2 rest outlen buffer (fun _ => by simpa using hb2) (by omega)
        · split
          · rename_i hux
            have hf := decodeUx_same (detect d line cur.length) line cur.length
            rw [hux] at hf
            generalize decodeUx (detect d line cur.length) line cur.length = q at *
            exact ih q.1 rest _ buffer (fun hn => absurd hf hn) (by omega)
          · exact ih _ rest outlen buffer hm1 (by omega)

theorem decodeBuffer_total (d : Dec) (buf : Bytes) (hm : d.format = .unknown → d.body = false) :
    ∃ o, decodeBuffer d buf = some o ∧ (o.dec.format = .unknown → o.dec.body = false) := by
  unfold decodeBuffer
  split
  · rename_i hy
    obtain ⟨d', out, hd, h1, -, -, -, -, -, h5, h6⟩ := decodeYenc_some d buf
    rw [hd]
    simp only [bind, Option.bind]
    split
    · exact ⟨_, rfl, fun h => by simp only [h1, hy.2] at h; cases h⟩
    · rename_i hb
      exact lineLoop_total _ _ _ _ _ (fun _ => by simpa using hb) (by omega)
  · rename_i hy
    refine lineLoop_total _ _ _ _ _ ?_ (by simp)
    intro hu
    simp only at hu ⊢
    cases hf : d.format with
    | unknown => exact hm hf
    | ux => exact absurd hf hu
    | yenc => rw [hf] at hy; simpa using hy

theorem receive_total (bufs : List Bytes) : ∀ (d : Dec) (w : Bytes), (d.format = .unknown → d.body = false) →
    ∃ r, receive d bufs w = some r := by
  induction bufs with
  | nil => intro d w _; exact ⟨_, rfl⟩
  | cons b bs ih =>
    intro d w hm
    rw [receive]
    split
    · exact ⟨_, rfl⟩
    · obtain ⟨o, h1, h2⟩ := decodeBuffer_total d b hm
      rw [h1]
      exact ih _ _ h2

/-! ### A reused decoder -/

theorem lineLoop_unknown (fuel : Nat) (d : Dec) (line : Bytes) (outlen : Nat) (buffer : Bytes) (cr : Bytes × Bytes)
    (hu : d.format = .unknown) (hs : startsWith (lit "=ybegin ") line = true) (hsp : splitLine line = some cr) :
    lineLoop (fuel + 1) d line outlen buffer = lineLoop (fuel + 1) { d with format := .yenc } line outlen buffer := by
  have hcs : startsWith (lit "=ybegin ") (cstr line) = true := by
    have : lit "=ybegin " <+: line := List.isPrefixOf_iff_prefix.1 hs
    obtain ⟨t, rfl⟩ := this
    rw [cstr_append_of_no_nul _ (by decide)]
    exact startsWith_append _ _
  have hdot : ¬ (line.getD 0 0 = 46 ∧ line.getD 1 0 = 13) := by
    have : lit "=ybegin " <+: line := List.isPrefixOf_iff_prefix.1 hs
    obtain ⟨t, rfl⟩ := this
    simp [lit]
  have h1 : detect d line cr.1.length = { d with format := .yenc } := by
    unfold detect detectFormat
    simp [hu, hcs]
  have h2 : detect { d with format := .yenc } line cr.1.length = { d with format := .yenc } := by
    unfold detect; rfl
  obtain ⟨cur, rest⟩ := cr
  rw [lineLoop, lineLoop, hsp]
  simp only [hdot, if_false, h1, h2]

/-- Two decoders waiting for the same first line, which is a `=ybegin` line. -/
structure Waiting (cc : Bool) (p : Bytes) : Prop where
  pre : p <+: lit "=ybegin " ∨ lit "=ybegin " <+: p

theorem appendBuf_pre {q l buf : Bytes} (h : q <+: l ++ buf) (h0 : (0 : UInt8) ∉ q) : q <+: appendBuf l buf := by
  unfold appendBuf
  rw [List.append_assoc]
  by_cases hl : q.length ≤ l.length
  · exact (List.prefix_of_prefix_length_le h (List.prefix_append _ _) hl).trans (List.prefix_append _ _)
  · have hlq : l <+: q := List.prefix_of_prefix_length_le (List.prefix_append _ _) h (by omega)
    obtain ⟨t, rfl⟩ := hlq
    have ht : t <+: buf := (List.prefix_append_right_inj l).1 h
    obtain ⟨u, rfl⟩ := ht
    rw [cstr_append_of_no_nul _ (by simp only [List.mem_append, not_or] at h0; exact h0.2)]
    exact (List.prefix_append_right_inj l).2 (by simp)

theorem appendBuf_of_pre {q l buf : Bytes} (h : l ++ buf <+: q) (h0 : (0 : UInt8) ∉ q) : appendBuf l buf = l ++ buf := by
  apply appendBuf_eq
  intro hb
  obtain ⟨t, rfl⟩ := h
  apply h0; simp [hb]

theorem receive_reuse (cc : Bool) (bufs : List Bytes) : ∀ (p w : Bytes),
    (lit "=ybegin " <+: p ∨ (p <+: lit "=ybegin " ∧ lit "=ybegin " <+: p ++ bufs.flatten)) → splitLine p = none →
    receive { fresh cc with lineBuf := p } bufs w = receive { fresh cc with lineBuf := p, format := .yenc } bufs w ∨
    ∃ p', receive { fresh cc with lineBuf := p } bufs w = some ({ fresh cc with lineBuf := p' }, w) ∧
      receive { fresh cc with lineBuf := p, format := .yenc } bufs w = some ({ fresh cc with lineBuf := p', format := .yenc }, w) := by
  induction bufs with
  | nil => intro p w _ _; exact Or.inr ⟨p, rfl, rfl⟩
  | cons b bs ih =>
    intro p w hp hsp
    have e1 : ({ fresh cc with lineBuf := p } : Dec).eof = false := rfl
    have e2 : ({ fresh cc with lineBuf := p, format := .yenc } : Dec).eof = false := rfl
    rw [receive_step _ _ _ _ e1, receive_step _ _ _ _ e2]
    have hd1 : decodeBuffer { fresh cc with lineBuf := p } b =
        lineLoop ((appendBuf p b).length + 1) { fresh cc with lineBuf := appendBuf p b } (appendBuf p b) 0 b := rfl
    have hd2 : decodeBuffer { fresh cc with lineBuf := p, format := .yenc } b =
        lineLoop ((appendBuf p b).length + 1) { fresh cc with lineBuf := appendBuf p b, format := .yenc } (appendBuf p b) 0 b := rfl
    rw [hd1, hd2]
    have hnext : lit "=ybegin " <+: appendBuf p b ∨
        (appendBuf p b <+: lit "=ybegin " ∧ lit "=ybegin " <+: appendBuf p b ++ bs.flatten) := by
      rcases hp with hp | ⟨hp1, hp2⟩
      · left
        exact appendBuf_pre (hp.trans (List.prefix_append _ _)) (by decide)
      · rw [List.flatten_cons, ← List.append_assoc] at hp2
        by_cases hl : (lit "=ybegin ").length ≤ (p ++ b).length
        · left
          exact appendBuf_pre (List.prefix_of_prefix_length_le hp2 (List.prefix_append _ _) hl) (by decide)
        · right
          have h1 : p ++ b <+: lit "=ybegin " := List.prefix_of_prefix_length_le (List.prefix_append _ _) hp2 (by omega)
          rw [appendBuf_of_pre h1 (by decide)]
          exact ⟨h1, hp2⟩
    cases hs : splitLine (appendBuf p b) with
    | some cr =>
      left
      have hst : lit "=ybegin " <+: appendBuf p b := by
        rcases hnext with h | ⟨h, -⟩
        · exact h
        · exfalso
          obtain ⟨h1, c, h2, -⟩ := splitLine_eq hs
          have : (10 : UInt8) ∈ appendBuf p b := by rw [h1, h2]; simp
          have := h.subset this
          revert this; decide
      have := lineLoop_unknown (appendBuf p b).length { fresh cc with lineBuf := appendBuf p b } (appendBuf p b) 0 b cr rfl
        (List.isPrefixOf_iff_prefix.2 hst) hs
      rw [this]
    | none =>
      have hhead : (if (appendBuf p b).head?.getD 0 ≠ 0 then appendBuf p b else []) = appendBuf p b := by
        cases hq : appendBuf p b with
        | nil => simp
        | cons x l =>
          have : x = 61 := by
            rw [hq] at hnext
            rcases hnext with h | ⟨h, -⟩
            · obtain ⟨t, ht⟩ := h; simp [lit] at ht; exact ht.1.symm
            · obtain ⟨t, ht⟩ := h; simp [lit] at ht; exact ht.1
          simp [this]
      have l1 : lineLoop ((appendBuf p b).length + 1) { fresh cc with lineBuf := appendBuf p b } (appendBuf p b) 0 b =
          some ⟨{ fresh cc with lineBuf := appendBuf p b }, 0, []⟩ := by
        rw [lineLoop, hs]; simp only [hhead, List.take_zero]
      have l2 : lineLoop ((appendBuf p b).length + 1) { fresh cc with lineBuf := appendBuf p b, format := .yenc } (appendBuf p b) 0 b =
          some ⟨{ fresh cc with lineBuf := appendBuf p b, format := .yenc }, 0, []⟩ := by
        rw [lineLoop, hs]; simp only [hhead, List.take_zero]
      rw [l1, l2]
      simp only [Option.bind_some, List.append_nil]
      exact ih _ _ hnext hs

end Verif.Decoder
