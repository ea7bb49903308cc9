import Verif.CrcTables
/-
Model of the article CRC: lib/yencode/SliceCrc.cpp and Crc32 in daemon/util/Util.cpp.
Only the portable slicing implementation is modelled (the PCLMUL/ACLE variants are not).
`uint32_t` is `BitVec 32`, bytes are `BitVec 8`. Little endian branch (`__LITTLE_ENDIAN`).
-/
namespace Verif.Crc

/-- Table access `crc32_tab[k][i]`; every index in the code is masked with 0xFF, so below 256
(the default 0 is never used: `tab_sizes` in CrcLemmas). -/
def look (t : List (BitVec 32)) (i : BitVec 32) : BitVec 32 := t.getD i.toNat 0

/-- SliceCrc.cpp:184 and 209: one byte with the standard table algorithm. -/
def byteStep (crc : BitVec 32) (b : BitVec 8) : BitVec 32 :=
  ((crc >>> 8) &&& 0x00FFFFFF#32) ^^^ look tab0 ((crc ^^^ b.setWidth 32) &&& 0xFF#32)

/-- SliceCrc.cpp:194, `*current`: a little endian 32 bit load. -/
def load32 (b0 b1 b2 b3 : BitVec 8) : BitVec 32 :=
  b0.setWidth 32 ||| (b1.setWidth 32 <<< 8) ||| (b2.setWidth 32 <<< 16) ||| (b3.setWidth 32 <<< 24)

/-- SliceCrc.cpp:194-198: four bytes at once. -/
def wordStep (crc : BitVec 32) (w : BitVec 32) : BitVec 32 :=
  let one := w ^^^ crc
  look tab0 ((one >>> 24) &&& 0xFF#32) ^^^ look tab1 ((one >>> 16) &&& 0xFF#32) ^^^
    look tab2 ((one >>> 8) &&& 0xFF#32) ^^^ look tab3 (one &&& 0xFF#32)

/-- SliceCrc.cpp:192-210: the four byte loop followed by the loop over the remaining 0 to 3 bytes. -/
def wordLoop : BitVec 32 → List (BitVec 8) → BitVec 32
  | crc, b0 :: b1 :: b2 :: b3 :: rest => wordLoop (wordStep crc (load32 b0 b1 b2 b3)) rest
  | crc, rest => rest.foldl byteStep crc

/-- SliceCrc.cpp:173-213 `crc_slice`; `align` is the address of `src` modulo 4. -/
def crcSlice (crc : BitVec 32) (align : Nat) (src : List (BitVec 8)) : BitVec 32 :=
  if align % 4 ≠ 0 ∧ src.length ≥ 4 then
    let unaligned := 4 - align % 4
    wordLoop ((src.take unaligned).foldl byteStep crc) (src.drop unaligned)
  else wordLoop crc src

/-- `Crc32` object: Reset (Util.cpp:1849-1854, SliceCrc.cpp:167-170), Append (Util.cpp:1856-1859) for each
block with its alignment, Finish (Util.cpp:1861-1864, SliceCrc.cpp:215-218). -/
def crcOfBlocks (blocks : List (Nat × List (BitVec 8))) : BitVec 32 :=
  ~~~ (blocks.foldl (fun c b => crcSlice c b.1 b.2) (~~~ 0#32))

/-- Util.cpp:1872-1884 `gf2_matrix_times`: `mat` is the remaining part of the matrix, `none` a read
past its end. -/
def matTimes : List (BitVec 32) → BitVec 32 → BitVec 32 → Option (BitVec 32)
  | mat, vec, sum =>
    if vec = 0#32 then some sum else
    match mat with
    | [] => none
    | m :: ms => matTimes ms (vec >>> 1) (if vec &&& 1#32 ≠ 0#32 then sum ^^^ m else sum)

/-- Util.cpp:1886-1892 `gf2_matrix_square`. -/
def matSquare (mat : List (BitVec 32)) : Option (List (BitVec 32)) :=
  mat.mapM (fun row => matTimes mat row 0#32)

/-- Util.cpp:1906-1911: operator for one zero bit. -/
def oneZeroBit : List (BitVec 32) :=
  0xedb88320#32 :: (List.range 31).map (fun n => 1#32 <<< n)

/-- Util.cpp:1921-1939. The two halves of the loop body do the same with the roles of the buffers
`odd` and `even` swapped, so one round of this loop is one half. -/
def combineLoop : Nat → List (BitVec 32) → BitVec 32 → Nat → Option (BitVec 32)
  | 0, _, _, _ => none
  | fuel + 1, cur, crc1, len2 => do
    let next ← matSquare cur
    let crc1 ← if len2 % 2 = 1 then matTimes next crc1 0#32 else pure crc1
    let len2 := len2 / 2
    if len2 = 0 then pure crc1 else combineLoop fuel next crc1 len2

/-- Util.cpp:1894-1945 `Crc32::Combine`; `len2` is below 2^32, so 33 rounds are enough fuel. -/
def combine (crc1 crc2 : BitVec 32) (len2 : Nat) : Option (BitVec 32) :=
  if len2 = 0 then some crc1 else do
    let even ← matSquare oneZeroBit                                -- 1914
    let odd ← matSquare even                                       -- 1917
    let crc1 ← combineLoop 33 odd crc1 len2
    pure (crc1 ^^^ crc2)

end Verif.Crc
