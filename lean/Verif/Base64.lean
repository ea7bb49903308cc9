import Verif.CStr
/-
Model of the base64 decoder of /repo/daemon/util/Util.cpp:139-206 and 694-730 (WebUtil::DecodeBase64), used
for the credentials of web requests (WebServer.cpp:150, 160) and for uploaded nzb-files (XmlRpc.cpp:2273).
The text ends at its terminating zero (inputBufferLength is 0 in both calls); an access outside of the
table is the outcome `none`.
-/
namespace Verif.Base64
open CStr

/-- BASE64_DEALPHABET (Util.cpp:144-159). -/
def dealphabet : List Nat :=
  [0,  0,  0,  0,  0,  0,  0,  0,  0,  0,
   0,  0,  0,  0,  0,  0,  0,  0,  0,  0,
   0,  0,  0,  0,  0,  0,  0,  0,  0,  0,
   0,  0,  0,  0,  0,  0,  0,  0,  0,  0,
   0,  0,  0, 62,  0,  0,  0, 63, 52, 53,
   54, 55, 56, 57, 58, 59, 60, 61,  0,  0,
   0, 61,  0,  0,  0,  0,  1,  2,  3,  4,
   5,  6,  7,  8,  9, 10, 11, 12, 13, 14,
   15, 16, 17, 18, 19, 20, 21, 22, 23, 24,
   25,  0,  0,  0,  0,  0,  0, 26, 27, 28,
   29, 30, 31, 32, 33, 34, 35, 36, 37, 38,
   39, 40, 41, 42, 43, 44, 45, 46, 47, 48,
   49, 50, 51,  0,  0,  0,  0,  0]

/-- `BASE64_DEALPHABET [(int)c]`; for a character from 128 on the index is negative (char is signed) or
too large. -/
def value (c : UInt8) : Option (BitVec 32) := (dealphabet[c.toNat]?).map (BitVec.ofNat 32)

/-- `buffer = (buffer | x) << 6`. -/
def push6 (buffer x : BitVec 32) : BitVec 32 := (buffer ||| x) <<< 6

/-- `(char)(buffer >> n)`. -/
def byteAt (buffer : BitVec 32) (n : Nat) : UInt8 := UInt8.ofNat (buffer >>> n).toNat

/-- DecodeByteQuartet (Util.cpp:161-206). -/
def quartet (c0 c1 c2 c3 : UInt8) : Option Bytes :=
  if c3 = 61 then
    if c2 = 61 then do
      let buffer := push6 0 (← value c0)
      let buffer := push6 buffer (← value c1)
      let buffer := buffer <<< 14
      return [byteAt buffer 24]
    else do
      let buffer := push6 0 (← value c0)
      let buffer := push6 buffer (← value c1)
      let buffer := push6 buffer (← value c2)
      let buffer := buffer <<< 8
      return [byteAt buffer 24, byteAt buffer 16]
  else do
    let buffer := push6 0 (← value c0)
    let buffer := push6 buffer (← value c1)
    let buffer := push6 buffer (← value c2)
    let buffer := push6 buffer (← value c3)
    let buffer := buffer <<< 2
    return [byteAt buffer 24, byteAt buffer 16, byteAt buffer 8]

/-- The characters which are not ignored (Util.cpp:705-710; a char from 128 on is negative and in no
range). -/
def counts (c : UInt8) : Bool :=
  (48 ≤ c.toNat && c.toNat ≤ 57) || (65 ≤ c.toNat && c.toNat ≤ 90) || (97 ≤ c.toNat && c.toNat ≤ 122) ||
  c == 43 || c == 47 || c == 61

/-- The loop of WebUtil::DecodeBase64 (Util.cpp:702-724). `q` holds ByteQuartet[0..i-1], the last one
first. -/
def loop : Bytes → Bytes → Option Bytes
  | [], _ => some []
  | c :: s, q =>
    match (if counts c then c :: q else q) with
    | [c3, c2, c1, c0] => do
      let out ← quartet c0 c1 c2 c3
      let rest ← loop s []
      return out ++ rest
    | q' => loop s q'

/-- WebUtil::DecodeBase64 (Util.cpp:694-728). -/
def decode (s : Bytes) : Option Bytes := loop s []

end Verif.Base64
