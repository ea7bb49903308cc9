/-
The text layer of the state files: daemon/queue/DiskState.cpp:44-100 `StateDiskFile` with the C functions
`vsnprintf`, `fgets` and `vsscanf` for the formats used there ("%s", "%i", "%u" and literal commas), and
daemon/util/Util.cpp:128-137 `JoinInt64`, `SplitInt64`.

Simplifications: files contain no NUL bytes (strings of the program cannot contain them); "%i" and "%u" convert
modulo 2^32 as glibc does.
-/
namespace Verif.Text

abbrev Bytes := List UInt8

/-- C `int` and `uint32` (32 bits), `int64` and `time_t` (64 bits). -/
abbrev I32 := BitVec 32
abbrev I64 := BitVec 64

/-! ### Writing -/

/-- Decimal digits of `n`, most significant first. -/
def digits : (fuel : Nat) → Nat → List Nat
  | 0, _ => []
  | f + 1, n => if n < 10 then [n] else digits f (n / 10) ++ [n % 10]

def digitChar (d : Nat) : UInt8 := UInt8.ofNat (48 + d)

/-- `%u`. -/
def showNat (n : Nat) : Bytes := (digits (n + 1) n).map digitChar

/-- `%i`. -/
def showInt (x : Int) : Bytes := if x < 0 then 45 :: showNat x.natAbs else showNat x.natAbs

/-- Conversions of the formats. -/
inductive Conv where | i | u
  deriving DecidableEq, Repr

def showNum : Conv → I32 → Bytes
  | .i, x => showInt x.toInt
  | .u, x => showNat x.toNat

/-- A line of numbers with commas between them, such as "%i,%u,%i". -/
def showNums : List (Conv × I32) → Bytes
  | [] => []
  | [(k, x)] => showNum k x
  | (k, x) :: rest => showNum k x ++ 44 :: showNums rest

/-- `StateDiskFile::PrintLine` (DiskState.cpp:44-58) with the result of the formatting as argument: the buffer
has 1024 bytes, `FormatV` returns the length of the whole formatted text (NString.cpp:88-94), also if it did not
fit, and `str[len++] = '\n'` is written at that index. `none`: write beyond the buffer. -/
def printLine (text : Bytes) : Option Bytes :=
  if text.length < 1024 then some (text ++ [10]) else none

/-- Several lines in sequence. -/
def printLines : List Bytes → Option Bytes
  | [] => some []
  | l :: ls => do
    let a ← printLine l
    let b ← printLines ls
    some (a ++ b)

/-! ### Reading -/

/-- `fgets` with room for `n` characters: what is stored and the rest of the file. -/
def fgets : (n : Nat) → Bytes → Bytes × Bytes
  | 0, b => ([], b)
  | _ + 1, [] => ([], [])
  | n + 1, c :: r => if c = 10 then ([c], r) else ((c :: (fgets n r).1), (fgets n r).2)

/-- Skip to the end of the line (DiskState.cpp:73). -/
def skipLine : Bytes → Bytes
  | [] => []
  | c :: r => if c = 10 then r else skipLine r

/-- `StateDiskFile::ReadLine` (DiskState.cpp:60-80): `none` at the end of the file. The last character is
removed in any case; a line that does not fit is cut and its rest skipped. -/
def readLine (size : Nat) (b : Bytes) : Option (Bytes × Bytes) :=
  if b.isEmpty then none
  else
    let r := fgets (size - 1) b
    if r.1.getLast? = some 10 then some (r.1.dropLast, r.2) else some (r.1.dropLast, skipLine r.2)

def isSpace (c : UInt8) : Bool := c = 32 || (9 ≤ c && c ≤ 13)

/-- Value of a digit in the given base. -/
def digitVal (base : Nat) (c : UInt8) : Option Nat :=
  let v := if 48 ≤ c ∧ c ≤ 57 then some (c.toNat - 48)
    else if 97 ≤ c ∧ c ≤ 102 then some (c.toNat - 87)
    else if 65 ≤ c ∧ c ≤ 70 then some (c.toNat - 55) else none
  v.bind (fun v => if v < base then some v else none)

/-- Digits as long as there are any: value and rest. -/
def scanDigits (base : Nat) : (acc : Nat) → Bytes → Nat × Bytes
  | acc, [] => (acc, [])
  | acc, c :: r => match digitVal base c with
    | some v => scanDigits base (acc * base + v) r
    | none => (acc, c :: r)

/-- An unsigned number; "%i" recognises the prefixes "0x" and "0" for the bases 16 and 8. -/
def scanNat (k : Conv) (b : Bytes) : Option (Nat × Bytes) :=
  match b with
  | [] => none
  | c :: r =>
    if c = 48 ∧ k = .i then
      match r with
      | 120 :: d :: r' => if (digitVal 16 d).isSome then some (scanDigits 16 0 (d :: r')) else some (0, r)
      | 88 :: d :: r' => if (digitVal 16 d).isSome then some (scanDigits 16 0 (d :: r')) else some (0, r)
      | _ => some (scanDigits 8 0 r)
    else if (digitVal 10 c).isSome then some (scanDigits 10 0 (c :: r)) else none

/-- One conversion of `vsscanf`: white space, sign, number. -/
def scanNum (k : Conv) (b : Bytes) : Option (I32 × Bytes) :=
  match b.dropWhile isSpace with
  | 45 :: r => (scanNat k r).map (fun x => (BitVec.ofInt 32 (-(x.1 : Int)), x.2))
  | 43 :: r => (scanNat k r).map (fun x => (BitVec.ofNat 32 x.1, x.2))
  | r => (scanNat k r).map (fun x => (BitVec.ofNat 32 x.1, x.2))

/-- `vsscanf` with conversions separated by commas; `none` if not all conversions are done. What follows is
ignored. -/
def scanNums : List Conv → Bytes → Option (List I32)
  | [], _ => some []
  | [k], b => (scanNum k b).map (fun x => [x.1])
  | k :: ks, b => match scanNum k b with
    | some (x, 44 :: r) => (scanNums ks r).map (x :: ·)
    | _ => none

/-- `StateDiskFile::ScanLine` (DiskState.cpp:86-100). -/
def scanLine (ks : List Conv) (b : Bytes) : Option (List I32 × Bytes) :=
  match readLine 1024 b with
  | none => none
  | some (l, r) => (scanNums ks l).map (fun x => (x, r))

/-! ### 64 bit numbers -/

/-- `Util::SplitInt64` (Util.cpp:133-137). -/
def splitHi (x : I64) : I32 := (x >>> 32).setWidth 32
def splitLo (x : I64) : I32 := x.setWidth 32

/-- `Util::JoinInt64` (Util.cpp:128-131). -/
def joinInt64 (hi lo : I32) : I64 := (hi.setWidth 64 <<< 32) + lo.setWidth 64

/-- The cast `(int)time`. -/
def timeToInt (t : I64) : I32 := t.setWidth 32

/-- The cast `(time_t)i`. -/
def intToTime (i : I32) : I64 := i.signExtend 64

/-- The cast `(bool)i`. -/
def toBool (i : I32) : Bool := i != 0

/-- The cast `(int)b`. -/
def ofBool (b : Bool) : I32 := if b then 1 else 0

end Verif.Text
