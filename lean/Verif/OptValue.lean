import Verif.OptStore
/-
Model of the reading of option values, /repo/daemon/main/Options.cpp:173-200, 809-873.

What is simplified: the messages and line numbers are left out; whether an error was reported is kept.
`none` stands for a read behind the end of an array (undefined behaviour).
-/
namespace Verif.OptValue
open CStr OptStore

/-- The arrays `argn` and `argv` and the number `argc` which are passed to Options::ParseEnumValue. -/
structure Table where
  names : List Bytes
  vals : List Int
  count : Nat

/-- What is left of a value: the number, the text of the option afterwards, and whether an error was reported. -/
structure Result where
  num : Int
  text : Bytes
  error : Bool
  deriving DecidableEq, Repr

/-- The inner loop (Options.cpp:823-833): the first name with the same number replaces the text, if it differs. The
name found is one of those before or at `i`, so that the loop never leaves the array. -/
def normal (t : Table) (v : Int) (text : Bytes) : Bytes :=
  match (t.names.zip t.vals).find? (fun p => p.2 == v) with
  | some p => if p.1 = text then text else p.1
  | none => text

/-- The outer loop (Options.cpp:819-842) from the index `i` on, `k` turns are left, and what follows it
(Options.cpp:844-847). `d` is `defNum`. -/
def enumLoop (t : Table) (value dflt : Bytes) : (k i d : Nat) → Option Result
  | 0, _, d =>
    match t.names[d]?, t.vals[d]? with
    | some n, some v => some ⟨v, n, true⟩
    | _, _ => none
  | k + 1, i, d =>
    match t.names[i]?, t.vals[i]? with
    | some n, some v =>
      if Rpc.eqNoCase value n then some ⟨v, normal t v value, false⟩
      else enumLoop t value dflt k (i + 1) (if Rpc.eqNoCase dflt n then i else d)
    | _, _ => none

/-- Options::ParseEnumValue (Options.cpp:809-848) of an option which is set. -/
def parseEnum (t : Table) (value dflt : Bytes) : Option Result := enumLoop t value dflt t.count 0 0

/-- BoolNames, BoolValues, BoolCount (Options.cpp:177-179). -/
def boolTable : Table :=
  ⟨["yes", "no", "true", "false", "1", "0", "on", "off", "enable", "disable", "enabled", "disabled"].map lit,
    [1, 0, 1, 0, 1, 0, 1, 0, 1, 0, 1, 0], 12⟩

/-- OutputMode (Options.cpp:764-767). -/
def outputTable : Table :=
  ⟨["loggable", "logable", "log", "colored", "color", "ncurses", "curses"].map lit, [0, 0, 0, 1, 1, 2, 2], 7⟩

/-- ParCheck (Options.cpp:769-772): the count is 6. -/
def parCheckTable : Table := ⟨["auto", "always", "force", "manual"].map lit, [0, 1, 2, 3], 6⟩

/-- ParScan (Options.cpp:774-777). -/
def parScanTable : Table := ⟨["limited", "extended", "full", "dupe"].map lit, [0, 1, 2, 3], 4⟩

/-- PostStrategy (Options.cpp:779-782). -/
def strategyTable : Table := ⟨["sequential", "balanced", "aggressive", "rocket"].map lit, [0, 1, 2, 3], 4⟩

/-- FileNaming (Options.cpp:784-787): the count is 4. -/
def namingTable : Table := ⟨["auto", "article", "nzb"].map lit, [0, 1, 2], 4⟩

/-- HealthCheck (Options.cpp:789-792). -/
def healthTable : Table := ⟨["pause", "delete", "park", "none"].map lit, [0, 1, 2, 3], 4⟩

/-- InfoTarget and the like (Options.cpp:794-801). -/
def targetTable : Table := ⟨["screen", "log", "both", "none"].map lit, [1, 2, 3, 0], 4⟩

/-- WriteLog (Options.cpp:803-806). -/
def writeLogTable : Table := ⟨["none", "append", "reset", "rotate"].map lit, [0, 1, 2, 3], 4⟩

/-- ServerN.IpVersion (Options.cpp:1015-1018). -/
def ipTable : Table := ⟨["auto", "ipv4", "ipv6"].map lit, [0, 4, 6], 3⟩

/-- A digit of the base, for bases up to 10. -/
def isDigitOf (base : Nat) (b : UInt8) : Bool := 48 ≤ b.toNat && b.toNat < 48 + base

/-- The value of the longest prefix of digits, and what follows it. -/
def digitsOf (base : Nat) (acc : Nat) : Bytes → Nat × Bytes
  | [] => (acc, [])
  | b :: l => if isDigitOf base b then digitsOf base (acc * base + (b.toNat - 48)) l else (acc, b :: l)

/-- The optional sign of a number: whether it is negative, and what follows. -/
def signOf : Bytes → Bool × Bytes
  | [] => (false, [])
  | b :: l => if b = 45 then (true, l) else if b = 43 then (false, l) else (false, b :: l)

/-- `strtol(s, &endptr, base)` for bases up to 10: the value and the text at `endptr`, which is the whole text if there
is no digit. The value is limited to 64 bits. -/
def strtol (base : Nat) (s : Bytes) : Int × Bytes :=
  let p := signOf (s.dropWhile isSpace)
  match p.2 with
  | [] => (0, s)
  | b :: l =>
    if isDigitOf base b then
      let r := digitsOf base 0 (b :: l)
      (clamp64 (if p.1 then -(r.1 : Int) else r.1), r.2)
    else (0, s)

/-- The conversion to `int`. -/
def toInt32 (i : Int) : Int := i.bmod (2 ^ 32)

/-- Options::ParseIntValue (Options.cpp:850-873) of an option which is set. -/
def parseInt (base : Nat) (value dflt : Bytes) : Result :=
  let r := strtol base value
  if r.2 = [] then ⟨toInt32 r.1, value, false⟩
  else ⟨toInt32 (strtol base dflt).1, dflt, true⟩

/-- The lines Options.cpp:717-722: TimeCorrection in seconds. Overflow of `int` is undefined behaviour: `none`. -/
def timeCorrection (i : Int) : Option Int :=
  let m := if -24 ≤ i ∧ i ≤ 24 then i * 60 else i
  if -(2 ^ 31) ≤ m * 60 ∧ m * 60 < 2 ^ 31 then some (m * 60) else none

/-- Options.cpp:695: the option DownloadRate in bytes; overflow is undefined behaviour. -/
def rateBytes (i : Int) : Option Int :=
  if -(2 ^ 31) ≤ i * 1024 ∧ i * 1024 < 2 ^ 31 then some (i * 1024) else none

/-- OptEntry::SetValue (Options.cpp:193-200) for the successive values of an option: the last value and the first one,
which is the default. -/
def history : Bytes → List Bytes → Bytes × Bytes
  | first, [] => (first, first)
  | first, v :: l => ((history v l).1, first)

end Verif.OptValue
