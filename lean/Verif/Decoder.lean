import Verif.YEnc
import Verif.Crc
import Verif.CStr
/-
Model of the article decoder, daemon/nntp/Decoder.cpp, and of the receive loop that drives it
(daemon/nntp/ArticleDownloader.cpp:340-388).
-/
namespace Verif.Decoder
open CStr
open YEnc (St)

/-- Decoder.h:40-45. -/
inductive Format where | unknown | yenc | ux
  deriving DecidableEq, Repr

/-- Decoder.h:30-38. -/
inductive Status where
  | unknownError | finished | articleIncomplete | crcError | invalidSize | noBinaryData
  deriving DecidableEq, Repr

/-- The members of `Decoder` (Decoder.h:63-82). `lineBuf` is the used part of `m_lineBuf` (the byte
after it is NUL whenever the code reads it: StringBuilder::Append, NString.cpp:356-370).
`crcReg` is the register of `m_crc32`. `m_articleFilename` is kept before the conversion from
Latin-1 (line 185). `m_state` is `yst` in yEnc mode and `rawSt` in raw mode (0..4). -/
structure Dec where
  format : Format := .unknown
  begin_ : Bool := false
  part : Bool := false
  body : Bool := false
  end_ : Bool := false
  crc : Bool := false
  expectedCRC : BitVec 32 := 0
  beginPos : Int := 0
  endPos : Int := 0
  size : Int := 0
  endSize : Int := 0
  outSize : Nat := 0
  eof : Bool := false
  crcCheck : Bool := false
  yst : St := .crlf
  rawMode : Bool := false
  rawSt : Nat := 0
  filename : Option Bytes := none
  lineBuf : Bytes := []
  crcReg : BitVec 32 := 0xFFFFFFFF#32
  deriving DecidableEq, Repr

/-- Decoder.cpp:35-55 `Clear`; `m_format`, `m_rawMode` and `m_calculatedCRC` are not touched. -/
def clear (d : Dec) : Dec :=
  { format := d.format, rawMode := d.rawMode }

/-- Constructor: Decoder.cpp:27-33 (with the member initialisers of Decoder.h:63,79), followed by
SetCrcCheck and SetRawMode(false) as in ArticleDownloader.cpp:333-335. -/
def fresh (crcCheck : Bool) : Dec := { crcCheck := crcCheck }

/-- ArticleDownloader.cpp:333-335: what is done before each article. -/
def prepare (d : Dec) (crcCheck rawMode : Bool) : Dec :=
  { clear d with crcCheck := crcCheck, rawMode := rawMode }

/-- `StringBuilder::Append` of a buffer (NString.cpp:356-370): `strncpy` copies up to the first NUL and
fills up with NULs. -/
def appendBuf (l buf : Bytes) : Bytes :=
  l ++ cstr buf ++ List.replicate (buf.length - (cstr buf).length) 0

/-- `strchr(line, '\n')`: the line including the newline, and what follows it in the buffer. -/
def splitLine : Bytes → Option (Bytes × Bytes)
  | [] => none
  | b :: l => if b = 0 then none else if b = 10 then some ([10], l) else
    match splitLine l with
    | none => none
    | some (x, y) => some (b :: x, y)

/-- Decoder.cpp:156-164: the permissions after "begin " are octal digits up to a blank. -/
def octalOk : Bytes → Bool
  | [] => true
  | b :: l => if b = 32 then true else if b.toNat < 48 ∨ b.toNat > 55 then false else octalOk l

/-- Decoder.cpp:147, 345: a full uuencoded data line. `text` is the buffer from the line start. -/
def isUuLine (text : Bytes) (llen : Nat) : Bool :=
  (llen == 62 || llen == 63) && ((text.getD 62 0) == 10 || (text.getD 62 0) == 13) && text.head? == some 77

/-- Decoder.cpp:140-172 `DetectFormat`. -/
def detectFormat (text : Bytes) (llen : Nat) : Format :=
  let s := cstr text
  if startsWith (lit "=ybegin ") s then .yenc
  else if isUuLine text llen then .ux
  else if startsWith (lit "begin ") s && octalOk (s.drop 6) then .ux
  else .unknown

/-- The text up to NUL, CR or LF (Decoder.cpp:184, 339). -/
def lineText (s : Bytes) : Bytes := s.takeWhile (fun b => b != 0 && b != 10 && b != 13)

/-- Decoder.cpp:174-235 `ProcessYenc`; `text` is the line buffer from the line start, as the `strstr`
calls are not limited to the line. -/
def processYenc (d : Dec) (text : Bytes) : Dec :=
  let s := cstr text
  if startsWith (lit "=ybegin ") s then                            -- 176
    let d := { d with begin_ := true }
    let d := match after (lit " name=") s with                     -- 179-186
      | some pb => { d with filename := some (lineText pb) }
      | none => d
    let d := match after (lit " size=") s with                     -- 187-192
      | some pb => { d with size := atoll pb }
      | none => d
    let d := { d with part := (after (lit " part=") s).isSome }    -- 193
    if !d.part then { d with body := true, beginPos := 1, endPos := d.size } else d -- 194-199
  else if startsWith (lit "=ypart ") s then                        -- 201
    let d := { d with part := true, body := true }
    let d := match after (lit " begin=") s with                    -- 205-210
      | some pb => { d with beginPos := atoll pb }
      | none => d
    match after (lit " end=") s with                               -- 211-216
      | some pb => { d with endPos := atoll pb }
      | none => d
  else if startsWith (lit "=yend ") s then                         -- 218
    let d := { d with end_ := true }
    let d := match after (if d.part then lit " pcrc32=" else lit " crc32=") s with -- 221-227
      | some pb => { d with crc := true, expectedCRC := strtoul16 pb }
      | none => d
    match after (lit " size=") s with                              -- 228-233
      | some pb => { d with endSize := atoll pb }
      | none => d
  else d

/-- Decoder.cpp:249-260: when the incremental decoder reported the end of the data, the marker and
what follows it go to the line buffer. -/
def endBody (d : Dec) (r : YEnc.Res) : Dec :=
  if r.ret ≠ 0 then
    let pre := if r.ret = 1 then lit "=y" else lit ".\r\n"
    { d with lineBuf := if r.rest.length > 0 then appendBuf pre r.rest else pre, body := false }
  else d

/-- Decoder.cpp:262-267: CRC and size of the decoded bytes. -/
def countOut (d : Dec) (out : Bytes) : Dec :=
  { d with
    crcReg := if d.crcCheck then Crc.crcSlice d.crcReg 0 (out.map (·.toBitVec)) else d.crcReg
    outSize := d.outSize + out.length }

/-- Decoder.cpp:237-270 `DecodeYenc`: new decoder and decoded bytes (written to `outbuf`). The
alignment passed to the CRC is irrelevant (C03). `none`: `decode` read out of bounds. -/
def decodeYenc (d : Dec) (buf : Bytes) : Option (Dec × Bytes) := do
  let r ← YEnc.decodeScalar d.yst buf                              -- 242
  pure (countOut (endBody { d with yst := r.st } r) r.out, r.out)

/-- Decoder.cpp:322 `UU_DECODE_CHAR`, result in 0..63. -/
def uuChar (c : UInt8) : Nat := if c = 96 then 0 else ((c.toNat : Int) - 32).emod 64 |>.toNat

/-- Decoder.cpp:367-383: the decoding loop; `l` is the text from `iptr` on. Reads past the end of the
line buffer give 0 here (in the code: whatever follows in memory). -/
def uuLoop : Nat → Bytes → Nat → Bytes
  | 0, _, _ => []
  | fuel + 1, l, effLen =>
    if effLen = 0 then [] else
    let c0 := uuChar (l.getD 0 0); let c1 := uuChar (l.getD 1 0)
    let c2 := uuChar (l.getD 2 0); let c3 := uuChar (l.getD 3 0)
    let o0 := UInt8.ofNat (c0 * 4 ||| c1 / 16)
    let o1 := UInt8.ofNat (c1 * 16 ||| c2 / 4)
    let o2 := UInt8.ofNat (c2 * 64 ||| c3)
    if effLen ≥ 3 then o0 :: o1 :: o2 :: uuLoop fuel (l.drop 4) (effLen - 3)
    else if effLen = 2 then [o0, o1] else [o0]

/-- Decoder.cpp:324-389 `DecodeUx`: new decoder and the decoded bytes, which are written over the line
in `m_lineBuf`. -/
def decodeUx (d : Dec) (text : Bytes) (llen : Nat) : Dec × Bytes :=
  let s := cstr text
  if !d.body && startsWith (lit "begin ") s then                   -- 326-344
    let pb := (s.drop 6).dropWhile (fun b => b != 32 && b != 0 && b != 10 && b != 13)
    ({ d with filename := some (lineText (pb.drop 1)), body := true }, [])
  else
    let d := if !d.body && isUuLine text llen then { d with body := true } else d -- 345-348
    let d := if d.body && (startsWith (lit "end ") s || text.head? == some 96) then
        { d with end_ := true } else d                             -- 351-354
    if d.body && !d.end_ then                                      -- 356
      let effLen := uuChar (text.getD 0 0)
      if effLen > llen then (d, []) else (d, uuLoop (effLen + 1) (text.drop 1) effLen) -- 358-385
    else (d, [])

/-- Result of `DecodeBuffer`: decoder, return value `outlen` and what the caller's buffer holds in its
first `outlen` bytes when the function returns (the caller writes these bytes to disk). -/
structure Out where
  dec : Dec
  outlen : Nat
  data : Bytes
  deriving DecidableEq, Repr

/-- Decoder.cpp:98-101. -/
def detect (d : Dec) (line : Bytes) (len : Nat) : Dec :=
  if d.format = .unknown then { d with format := detectFormat line len } else d

/-- Decoder.cpp:86-137: the line loop. `line` is the unprocessed rest of `m_lineBuf`, `buffer` the
contents of the caller's buffer. Decoded yEnc data is written to the caller's buffer (108), decoded
UU data is not (120, it stays in `m_lineBuf`). -/
def lineLoop : Nat → Dec → Bytes → Nat → Bytes → Option Out
  | 0, _, _, _, _ => none
  | fuel + 1, d, line, outlen, buffer =>
    match splitLine line with
    | none =>                                                      -- 126-137
      some ⟨{ d with lineBuf := if line.head?.getD 0 ≠ 0 then line else [] }, outlen, buffer.take outlen⟩
    | some (cur, rest) =>
      if line.getD 0 0 = 46 ∧ line.getD 1 0 = 13 then              -- 91-96
        some ⟨{ d with eof := true, lineBuf := [] }, outlen, buffer.take outlen⟩
      else
        let d := detect d line cur.length
        if d.format = .yenc then                                   -- 103
          let d := processYenc d line
          if d.body then do                                        -- 106
            let (d, out) ← decodeYenc d rest                       -- 108
            let buffer := out ++ buffer.drop out.length
            if d.body then pure ⟨{ d with lineBuf := [] }, out.length, buffer.take out.length⟩ -- 109-113
            else lineLoop fuel d d.lineBuf out.length buffer       -- 114-115
          else lineLoop fuel d rest outlen buffer                  -- 123
        else if d.format = .ux then                                -- 118-121
          let (d, out) := decodeUx d line cur.length
          lineLoop fuel d rest (outlen + out.length) buffer
        else lineLoop fuel d rest outlen buffer

/-- Decoder.cpp:63-138 `DecodeBuffer` when not in raw mode. The line loop runs at most once per line. -/
def decodeBuffer (d : Dec) (buf : Bytes) : Option Out :=
  if d.body ∧ d.format = .yenc then do                             -- 73-80
    let (d, out) ← decodeYenc d buf
    let buffer := out ++ buf.drop out.length
    if d.body then pure ⟨d, out.length, buffer.take out.length⟩
    else lineLoop (d.lineBuf.length + 1) d d.lineBuf out.length buffer
  else
    let d := { d with lineBuf := appendBuf d.lineBuf buf }         -- 83
    lineLoop (d.lineBuf.length + 1) d d.lineBuf 0 buf

/-- ArticleDownloader.cpp:340-388, the receive loop: buffers are decoded until the end of the article
is seen; `written` collects what is handed to the article writer. -/
def receive (d : Dec) : List Bytes → Bytes → Option (Dec × Bytes)
  | [], written => some (d, written)
  | b :: bs, written =>
    if d.eof then some (d, written) else do
      let o ← decodeBuffer d b
      receive o.dec bs (written ++ o.data)

/-- Decoder.cpp:289 `m_calculatedCRC`. -/
def calculatedCRC (d : Dec) : BitVec 32 := ~~~ d.crcReg

/-- Decoder.cpp:287-312 `CheckYenc`. -/
def checkYenc (d : Dec) : Status :=
  if !d.begin_ then .noBinaryData
  else if !d.end_ then .articleIncomplete
  else if (!d.part ∧ d.size ≠ d.endSize) ∨ d.endSize ≠ (d.outSize : Int) then .invalidSize
  else if d.crcCheck ∧ d.crc ∧ d.expectedCRC ≠ calculatedCRC d then .crcError
  else .finished

/-- Decoder.cpp:272-285 `Check`, with 391-399 `CheckUx`. -/
def check (d : Dec) : Status :=
  match d.format with
  | .yenc => checkYenc d
  | .ux => if !d.body then .noBinaryData else .finished
  | .unknown => .unknownError

/-! ### Raw mode -/

/-- `strstr(buffer, "\r\n.\r\n")` on the C string in the buffer. -/
def hasTerminator (buf : Bytes) : Bool := (after (lit "\r\n.\r\n") (cstr buf)).isSome

/-- Does the buffer end with `p`? (Decoder.cpp:425-438) -/
def endsWith (p buf : Bytes) : Bool := p.isSuffixOf buf

/-- Decoder.cpp:401-446 `ProcessRaw` on the pair (m_state, m_eof). -/
def processRaw (st : Nat × Bool) (buf : Bytes) : Nat × Bool :=
  let eof := match st.1 with
    | 1 => startsWith (lit "\n.\r\n") buf
    | 2 => startsWith (lit ".\r\n") buf
    | 3 => startsWith (lit "\r\n") buf
    | 4 => startsWith (lit "\n") buf
    | _ => st.2
  let eof := eof || (decide (buf.length ≥ 5) && hasTerminator buf) -- 423
  let s := if endsWith (lit "\r\n.\r") buf then 4
    else if endsWith (lit "\r\n.") buf then 3
    else if endsWith (lit "\r\n") buf then 2
    else if endsWith (lit "\r") buf then 1
    else 0
  (s, eof)

/-- Raw mode receive loop: buffers until end of article. Returns the final state. -/
def receiveRaw : Nat × Bool → List Bytes → Nat × Bool
  | st, [] => st
  | st, b :: bs => if st.2 then st else receiveRaw (processRaw st b) bs

/-! ### What the server sends -/

/-- YEncoder.cpp:62-129 `WriteSegment` followed by the end marker of NntpServer.cpp:375: the article
for a segment `data` of the file `name` (base name), part number `part`, file size and offset. -/
def serveArticle (part fileSize offset : Nat) (name data : Bytes) : Bytes :=
  lit "=ybegin part=" ++ dec part ++ lit " line=128 size=" ++ dec fileSize ++ lit " name=" ++ name ++ lit "\r\n" ++
  (lit "=ypart begin=" ++ dec (offset + 1) ++ lit " end=" ++ dec (offset + data.length) ++ lit "\r\n") ++
  YEnc.encodeBody 0 data ++
  (lit "=yend size=" ++ dec data.length ++ lit " part=0 pcrc32=" ++
    hex8 (Crc.crcOfBlocks [(0, data.map (·.toBitVec))]) ++ lit "\r\n") ++
  lit ".\r\n"

end Verif.Decoder
