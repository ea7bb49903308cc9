import Verif.CStr
/-
Model of the reader of headers of rar-files, /repo/daemon/postprocess/RarReader.cpp: RarVolume::Read (71-103),
DetectRarVersion (105-119), Read/Read16/Read32/ReadV/Skip (121-181), ReadRar3Volume (183-248), ReadRar3Block
(250-298), ReadRar3File (300-337), ReadRar5Volume (339-422), ReadRar5Block (424-461), ReadRar5File (463-536).

The volumes are read without a password: then every encrypted volume is refused. `block.trailsize` is kept
as an integer; the code keeps it modulo 2^64. Reading beyond the end of the file gives an error.
-/
namespace Verif.Rar
open CStr

/-- The result of reading: a value, an error (the functions return false) or undefined behaviour. -/
inductive Out (α : Type) where
  | ok (a : α)
  | bad
  | undef
deriving Repr, DecidableEq

/-- A reader: the contents of the file, the position in the file and `block.trailsize`. -/
def Rd (α : Type) : Type := Bytes → Nat → Int → Out (α × Nat × Int)

def Rd.pure {α : Type} (a : α) : Rd α := fun _ pos t => .ok (a, pos, t)

def Rd.bind {α β : Type} (m : Rd α) (k : α → Rd β) : Rd β := fun f pos t =>
  match m f pos t with
  | .ok (a, pos', t') => k a f pos' t'
  | .bad => .bad
  | .undef => .undef

instance : Monad Rd where
  pure := Rd.pure
  bind := Rd.bind

/-- `return false`. -/
def fail {α : Type} : Rd α := fun _ _ _ => .bad

def undefined {α : Type} : Rd α := fun _ _ _ => .undef

/-- RarVolume::Read (RarReader.cpp:121-138) without encryption. -/
def bytes (n : Nat) : Rd Bytes := fun f pos t =>
  if pos + n ≤ f.length then .ok ((f.drop pos).take n, pos + n, t - n) else .bad

def getTrail : Rd Int := fun _ pos t => .ok (t, pos, t)
def setTrail (t : Int) : Rd Unit := fun _ pos _ => .ok ((), pos, t)
def getFile : Rd Nat := fun f pos t => .ok (f.length, pos, t)

/-- A number of which the lowest byte is first. -/
def le : Bytes → Nat
  | [] => 0
  | b :: s => b.toNat + 256 * le s

/-- RarVolume::Read16 and Read32 (RarReader.cpp:140-154). -/
def uint (n : Nat) : Rd Nat := do
  let b ← bytes n
  return le b

/-- The loop of RarVolume::ReadV (RarReader.cpp:156-169) before byte number `i`: a shift by 64 or more bits is
undefined, that is the byte after `left` more bytes. The sum is modulo 2^64. -/
def vintLoop : (left i acc : Nat) → Rd Nat
  | 0, _, _ => do
    let _ ← uint 1
    undefined
  | k + 1, i, acc => do
    let b ← uint 1
    let acc := (acc + (b % 128) * 2 ^ (7 * i)) % 2 ^ 64
    if 128 ≤ b then vintLoop k (i + 1) acc else return acc

/-- RarVolume::ReadV (RarReader.cpp:156-169): the shift of the eleventh byte is by 70 bits. -/
def vint : Rd Nat := vintLoop 10 0 0

/-- A 64-bit pattern as a signed number. -/
def asInt64 (x : Int) : Int := (x + 2 ^ 63) % 2 ^ 64 - 2 ^ 63

/-- RarVolume::Skip (RarReader.cpp:171-181), the size is an `int64`. -/
def skip (size : Int) : Rd Unit :=
  if asInt64 size > 0 then do
    let _ ← bytes (asInt64 size).toNat
    return ()
  else return ()

/-- `file.Seek(skip, DiskFile::soCur)` with the `uint64` trailsize (RarReader.cpp:233-244, 403-418). -/
def seek : Rd Unit := fun _ pos t =>
  let p := (pos : Int) + asInt64 t
  if p < 0 ∨ 2 ^ 63 ≤ p then .bad else .ok ((), p.toNat, t)

/-- Something which is read only under a condition. -/
def opt (c : Bool) (m : Rd Nat) (d : Nat) : Rd Nat := if c then m else pure d

def skipIf (c : Bool) (size : Int) : Rd Unit := if c then skip size else pure ()

/-- RarFile. -/
structure RFile where
  name : Bytes
  time : Nat
  attr : Nat
  size : Nat
  splitBefore : Bool
  splitAfter : Bool
deriving DecidableEq, Repr

/-- RarVolume. -/
structure Vol where
  volumeNo : Nat := 0
  newNaming : Bool := false
  hasNext : Bool := false
  multi : Bool := false
  files : List RFile := []
deriving DecidableEq, Repr

/-- A `CString` made of a buffer: up to the first zero. -/
def cstr (b : Bytes) : Bytes := b.takeWhile (· != 0)

structure Block where
  type : Nat
  flags : Nat
  addsize : Nat
deriving DecidableEq, Repr

/-- ReadRar3Block (RarReader.cpp:250-298). -/
def block3 : Rd Block := do
  let _ ← uint 2
  let type ← uint 1
  let flags ← uint 2
  let size ← uint 2
  if flags.testBit 15 then
    let a ← uint 4
    setTrail (((size + a) % 2 ^ 32 : Nat) - 7 - 4)
    return ⟨type, flags, a⟩
  else
    setTrail ((size : Int) - 7)
    return ⟨type, flags, 0⟩

/-- The high parts of the sizes (RarReader.cpp:318-326). -/
def high3 : Rd Nat := do
  let high ← uint 4
  let t ← getTrail
  setTrail (t + high * 2 ^ 32)
  uint 4

/-- ReadRar3File (RarReader.cpp:300-337). -/
def file3 (flags : Nat) : Rd RFile := do
  let size ← uint 4
  skip 1
  skip 4
  let time ← uint 4
  skip 2
  let namelen ← uint 2
  let attr ← uint 4
  let high ← opt (flags.testBit 8) high3 0
  if namelen > 8192 then fail
  else
    let name ← bytes namelen
    return ⟨cstr name, time, attr, size + high * 2 ^ 32, flags.testBit 0, flags.testBit 1⟩

/-- One round of the loop of ReadRar3Volume (RarReader.cpp:187-245): `true` if the loop is left. -/
def step3 (v : Vol) : Rd (Bool × Vol) := do
  let b ← block3
  if b.type = 0 then fail
  else if b.type = 0x73 then
    if b.flags.testBit 7 then fail
    else
      seek
      return (false, { v with newNaming := b.flags.testBit 4, multi := b.flags.testBit 0 })
  else if b.type = 0x74 then
    let x ← file3 b.flags
    seek
    return (false, { v with files := v.files ++ [x] })
  else if b.type = 0x7b then
    skipIf (b.flags.testBit 1) 4
    if b.flags.testBit 3 then
      let n ← uint 4
      return (true, { v with volumeNo := n, hasNext := b.flags.testBit 0 })
    else return (true, v)
  else if b.type < 0x72 ∨ b.type > 0x7b then fail
  else
    seek
    return (false, v)

/-- ReadRar5Block (RarReader.cpp:424-461). -/
def block5 : Rd Block := do
  let _ ← uint 4
  let size ← vint
  setTrail (size % 2 ^ 32 : Nat)
  let type ← vint
  let flags ← vint
  let addsize ← opt ((flags % 2 ^ 16).testBit 0) vint 0
  let datasize ← opt ((flags % 2 ^ 16).testBit 1) vint 0
  let t ← getTrail
  setTrail (t + datasize)
  return ⟨type % 256, flags % 2 ^ 16, addsize⟩

/-- The time of an extra record (RarReader.cpp:512-525). -/
def time5 : Rd Nat := do
  let flags ← vint
  if flags.testBit 0 then uint 4
  else
    let low ← uint 4
    let high ← uint 4
    return ((((high * 2 ^ 32 + low) / 10000000 : Nat) - 11644473600 : Int) % 2 ^ 32).toNat

/-- The loop over the extra records of a file (RarReader.cpp:495-532). `rem`: remsize, modulo 2^64. Every round
reads two bytes or more. -/
def extra5 : (fuel : Nat) → (rem time : Nat) → Rd Nat
  | 0, _, _ => fail
  | k + 1, rem, time =>
    if rem = 0 then return time
    else do
      let t0 ← getTrail
      let len ← vint
      let t1 ← getTrail
      let rem := (((rem : Int) - (t0 - t1 + len)) % 2 ^ 64).toNat
      let type ← vint
      let time ← opt (type == 3) time5 time
      let t2 ← getTrail
      skip ((len : Int) - (t1 - t2))
      extra5 k rem time

/-- ReadRar5File (RarReader.cpp:463-536). m_size is an `int64`, kept here modulo 2^64. -/
def file5 (b : Block) : Rd RFile := do
  let fileflags ← vint
  let size ← vint
  let attr ← vint
  let time ← opt (fileflags.testBit 1) (uint 4) 0
  skipIf (fileflags.testBit 2) 4
  let _ ← vint
  let _ ← vint
  let namelen ← vint
  if namelen > 8192 then fail
  else
    let name ← bytes namelen
    let total ← getFile
    let time ← opt (b.flags.testBit 0) (extra5 (total + 1) b.addsize time) time
    return ⟨cstr name, time, attr % 2 ^ 32, size, b.flags.testBit 3, b.flags.testBit 4⟩

/-- One round of the loop of ReadRar5Volume (RarReader.cpp:345-419). -/
def step5 (v : Vol) : Rd (Bool × Vol) := do
  let b ← block5
  if b.type = 0 then fail
  else if b.type = 1 then
    let arcflags ← vint
    let volnr ← opt (arcflags.testBit 1) vint v.volumeNo
    seek
    return (false, { v with volumeNo := volnr % 2 ^ 32, newNaming := true, multi := arcflags.testBit 0 })
  else if b.type = 4 then
    let x ← vint
    if x ≠ 0 then fail
    else
      let _ ← vint
      let _ ← bytes 17
      fail
  else if b.type = 2 then
    let x ← file5 b
    seek
    return (false, { v with files := v.files ++ [x] })
  else if b.type = 5 then
    let e ← vint
    return (true, { v with hasNext := e.testBit 0 })
  else if b.type > 5 then fail
  else
    seek
    return (false, v)

/-- The loops of ReadRar3Volume and ReadRar5Volume: after a successful `Seek` the end-of-file mark is reset, so
`file.Eof()` never ends the loop. `none`: not finished after `fuel` rounds; `some .bad`: the volume is refused. -/
def loop (step : Vol → Rd (Bool × Vol)) (f : Bytes) : (fuel : Nat) → Vol → (pos : Nat) → Option (Out Vol)
  | 0, _, _ => none
  | k + 1, v, pos =>
    match step v f pos 0 with
    | .bad => some .bad
    | .undef => some .undef
    | .ok ((true, v'), _, _) => some (.ok v')
    | .ok ((false, v'), pos', _) => loop step f k v' pos'

/-- DetectRarVersion (RarReader.cpp:105-119). The comparison ends at the zero of the signature. -/
def version (f : Bytes) : Nat :=
  if f.length < 8 then 0
  else if ([82, 97, 114, 33, 26, 7, 1, 0] : Bytes).isPrefixOf f then 5
  else if ([82, 97, 114, 33, 26, 7, 0] : Bytes).isPrefixOf f then 3
  else 0

/-- RarVolume::Read (RarReader.cpp:71-103). -/
def read (f : Bytes) (fuel : Nat) : Option (Out Vol) :=
  if version f = 3 then loop step3 f fuel {} 0
  else if version f = 5 then loop step5 f fuel {} 8
  else some .bad

end Verif.Rar
