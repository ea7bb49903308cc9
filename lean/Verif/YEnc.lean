/-
Model of the scalar yEnc decoder (lib/yencode/ScalarDecoder.cpp) and of the built-in yEnc
encoder (daemon/nserv/YEncoder.cpp).

Pointers: the C code keeps `es` (end of input) and a negative index `i`; the model keeps the
suffix `l` of the input starting at `es + i`, so `es[i+k]` is `l[k]?` and `i == 0` is `l = []`.
A read outside the buffer is `none`: an explicit outcome of the model, not an assumption.
-/
namespace Verif.YEnc

/-- lib/yencode/YEncode.h:31-39 `YencDecoderState`. -/
inductive St where
  | crlf | eq | cr | none | crlfdt | crlfdtcr | crlfeq
  deriving DecidableEq, Repr

/-- What `decode_scalar` leaves behind: return value, unread input (`*src`), bytes written to
`*dest`, new `*state` (ScalarDecoder.cpp:31-35). -/
structure Res where
  ret : Nat
  rest : List UInt8
  out : List UInt8
  st : St
  deriving DecidableEq, Repr

def CR : UInt8 := 13
def LF : UInt8 := 10
def EQ : UInt8 := 61
def DOT : UInt8 := 46
def LY : UInt8 := 121

/-- ScalarDecoder.cpp:166-206, the part after the main loop (at most two bytes left). -/
def epilogue (l out : List UInt8) : Option Res :=
  -- 168: if(i == -2)
  if l.length = 2 then do
    let c ← l[0]?
    let d ← l[1]?
    if c = CR ∧ d = LF then
      pure ⟨0, [], out, .crlf⟩                                    -- 172-177
    else if c = CR ∨ c = LF then fin (l.drop 1) out               -- 171,178-179,188
    else if c = EQ then                                           -- 180-184
      fin (l.drop (if d ≠ CR then 2 else 1)) (out ++ [d - 42 - 64])
    else fin (l.drop 1) (out ++ [c - 42])                         -- 185-188
  else fin l out
where
  /-- ScalarDecoder.cpp:191-206, the last byte. -/
  fin (l out : List UInt8) : Option Res :=
    if l.length = 1 then do
      let c ← l[0]?
      if c ≠ LF ∧ c ≠ CR ∧ c ≠ EQ then pure ⟨0, [], out ++ [c - 42], .none⟩
      else if c = EQ then pure ⟨0, [], out, .eq⟩
      else if c = CR then pure ⟨0, [], out, .cr⟩
      else pure ⟨0, [], out, .none⟩
    else pure ⟨0, [], out, .none⟩

/-- ScalarDecoder.cpp:102-165, the main loop `for(; i < -2; i++)`; `fuel` bounds the number of
iterations (running out of it is the outcome `none`, shown unreachable). Each recursive call is
one `continue`, i.e. it includes the `i++` of the loop header. -/
def mainLoop : Nat → List UInt8 → List UInt8 → Option Res
  | 0, _, _ => none
  | fuel + 1, l, out =>
    if l.length > 2 then do
      let c ← l[0]?
      if c = CR then                                              -- 105
        let d ← l[1]?
        if d = LF then                                            -- 106
          let c2 ← l[2]?
          if c2 = DOT then                                        -- 108
            let l3 := l.drop 3                                    -- 110
            if l3 = [] then pure ⟨0, [], out, .crlfdt⟩ else       -- 111
            let e ← l3[0]?
            if e = CR then                                        -- 113
              let l4 := l3.drop 1
              if l4 = [] then pure ⟨0, [], out, .crlfdtcr⟩ else   -- 115
              let g ← l4[0]?
              if g = LF then pure ⟨2, l4.drop 1, out, .crlf⟩      -- 116-120
              else mainLoop fuel l4 out                           -- 121
            else if e = EQ then                                   -- 122
              let l4 := l3.drop 1
              if l4 = [] then pure ⟨0, [], out, .crlfeq⟩ else     -- 124
              let g ← l4[0]?
              if g = LY then pure ⟨1, l4.drop 1, out, .none⟩      -- 125-129
              else mainLoop fuel (if g = CR then l4 else l4.drop 1) (out ++ [g - 42 - 64]) -- 132-134
            else mainLoop fuel l3 out                             -- 136
          else if c2 = EQ then                                    -- 138
            let l3 := l.drop 3
            if l3 = [] then pure ⟨0, [], out, .crlfeq⟩ else       -- 140
            let g ← l3[0]?
            if g = LY then pure ⟨1, l3.drop 1, out, .none⟩        -- 141-146
            else mainLoop fuel (if g = CR then l3 else l3.drop 1) (out ++ [g - 42 - 64]) -- 149-151
          else mainLoop fuel (l.drop 1) out                       -- 155-156
        else mainLoop fuel (l.drop 1) out                         -- 155-156
      else if c = LF then mainLoop fuel (l.drop 1) out            -- 155-156
      else if c = EQ then                                         -- 157-161
        let d ← l[1]?
        mainLoop fuel (l.drop (if d ≠ CR then 2 else 1)) (out ++ [d - 42 - 64])
      else mainLoop fuel (l.drop 1) (out ++ [c - 42])             -- 162-163
    else epilogue l out

/-- The main loop started with enough fuel for its input. -/
def body (l out : List UInt8) : Option Res := mainLoop (l.length + 1) l out

/-- ScalarDecoder.cpp:90-97 `case YDEC_STATE_CRLFDTCR`. -/
def caseCrlfDtCr (l out : List UInt8) : Option Res := do
  let c ← l[0]?
  if c = LF then pure ⟨2, l.drop 1, out, .crlf⟩ else body l out

/-- ScalarDecoder.cpp:57-98, `case YDEC_STATE_EQ` up to the end of the switch; the mutually
jumping cases (`goto do_decode_endable_scalar_ceq`, fall-through) are bounded by `fuel`. -/
def switch : Nat → St → List UInt8 → List UInt8 → Option Res
  | 0, _, _, _ => none
  | fuel + 1, s, l, out =>
    match s with
    | .crlfeq => do                                               -- 50-56
      let c ← l[0]?
      if c = LY then pure ⟨1, l.drop 1, out, .none⟩
      else switch fuel .eq l out
    | .eq => do                                                   -- 57-62
      let c ← l[0]?
      let out := out ++ [c - 42 - 64]
      let l := l.drop 1
      if c ≠ CR then body l out
      else if l = [] then pure ⟨0, [], out, .cr⟩
      else switch fuel .cr l out
    | .cr => do                                                   -- 64-67
      let c ← l[0]?
      if c ≠ LF then body l out
      else
        let l := l.drop 1
        if l = [] then pure ⟨0, [], out, .crlf⟩ else switch fuel .crlf l out
    | .crlf => do                                                 -- 68-78
      let c ← l[0]?
      if c = DOT then
        let l := l.drop 1
        if l = [] then pure ⟨0, [], out, .crlfdt⟩ else switch fuel .crlfdt l out
      else if c = EQ then
        let l := l.drop 1
        if l = [] then pure ⟨0, [], out, .crlfeq⟩ else switch fuel .crlfeq l out
      else body l out
    | .crlfdt => do                                               -- 79-89
      let c ← l[0]?
      if c = CR then
        let l := l.drop 1
        if l = [] then pure ⟨0, [], out, .crlfdtcr⟩ else caseCrlfDtCr l out
      else if c = EQ then
        let l := l.drop 1
        if l = [] then pure ⟨0, [], out, .crlfeq⟩ else switch fuel .crlfeq l out
      else body l out
    | .crlfdtcr => caseCrlfDtCr l out                             -- 90-97
    | .none => body l out                                         -- 98

/-- ScalarDecoder.cpp:35-207 `decode_scalar` with a non-null `state` (the only way nzbget calls
it, Decoder.cpp `DecodeYenc`). `none` = out-of-bounds read or endless loop. -/
def decodeScalar (s : St) (src : List UInt8) : Option Res :=
  if src.length < 1 then some ⟨0, src, [], s⟩                     -- 41
  else switch (2 * src.length + 2) s src []

/-- A sequence of buffers given to the decoder one after the other; decoding stops at the first
buffer in which an end sequence is found, what was not consumed (rest of that buffer and all later
buffers) is returned. Models the calls of `YEncode::decode` from daemon/nntp/Decoder.cpp:DecodeYenc
for consecutive network buffers of one article. -/
def decodeChunks : St → List (List UInt8) → List UInt8 → Option Res
  | s, [], out => some ⟨0, [], out, s⟩
  | s, c :: cs, out => do
    let r ← decodeScalar s c
    if r.ret = 0 then decodeChunks r.st cs (out ++ r.out)
    else pure ⟨r.ret, r.rest ++ cs.flatten, out ++ r.out, r.st⟩

/-! ### Encoder -/

/-- YEncoder.cpp:93: the characters which are escaped. -/
def mustEscape (ch : UInt8) : Bool :=
  ch == 0 || ch == 10 || ch == 13 || ch == 61 || ch == 32 || ch == 9

/-- YEncoder.cpp:88-123: the inner loop of `WriteSegment` over the bytes of the segment, `lnsz` is
the length of the current output line. The reading of the file in blocks (lines 75-79) only cuts
`data`; the last byte of the last block ends the line (line 107). Flushing of `outbuf` (114-119)
does not change the emitted stream and is left out. -/
def encodeBody : Nat → List UInt8 → List UInt8
  | _, [] => []
  | lnsz, b :: data =>
    let ch := b + 42                                              -- 92
    let esc := mustEscape ch                                      -- 93
    let pre1 := if esc then [EQ] else []                          -- 95
    let lnsz := if esc then lnsz + 1 else lnsz                    -- 96
    let ch := if esc then ch + 64 else ch                         -- 97
    let dot := ch == DOT && lnsz == 0                             -- 99
    let pre2 := if dot then [DOT] else []                         -- 101
    let lnsz := if dot then lnsz + 1 else lnsz                    -- 102
    let lnsz := lnsz + 1                                          -- 105
    let eol := decide (lnsz ≥ 128) || data.isEmpty                -- 107
    pre1 ++ pre2 ++ [ch] ++ (if eol then [CR, LF] else []) ++
      encodeBody (if eol then 0 else lnsz) data

end Verif.YEnc
