/-
Specification of CRC-32, independent of the implementation: the bit-serial reflected CRC with
polynomial 0xEDB88320, initial value all ones, final complement (ISO 3309 / zlib / yEnc).
-/
namespace Verif.Crc

/-- Shift one bit out of the CRC register. -/
def bitStep (c : BitVec 32) : BitVec 32 :=
  if c.getLsbD 0 then (c >>> 1) ^^^ 0xEDB88320#32 else c >>> 1

/-- `n` bit steps. -/
def bitSteps : Nat → BitVec 32 → BitVec 32
  | 0, c => c
  | n + 1, c => bitSteps n (bitStep c)

/-- Feed one byte. -/
def feedByte (c : BitVec 32) (b : BitVec 8) : BitVec 32 := bitSteps 8 (c ^^^ b.setWidth 32)

/-- CRC-32 of a byte string. -/
def crc32 (bytes : List (BitVec 8)) : BitVec 32 := ~~~ (bytes.foldl feedByte 0xFFFFFFFF#32)

end Verif.Crc
