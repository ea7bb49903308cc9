import Verif.XmlText
/-
Model of the JSON texts of /repo/daemon/util/Util.cpp: WebUtil::JsonEncode (1006-1125), JsonDecode
(1127-1185), JsonFindField and JsonNextValue (1187-1235).
-/
namespace Verif.JsonText
open CStr XmlText

/-- The loop of JsonEncode (Util.cpp:1041-1119). -/
def encLoop : Nat → Bytes → Bytes
  | 0, _ => []
  | _, [] => []
  | n + 1, ch :: s =>
    if ch = 34 then [92, 34] ++ encLoop n s
    else if ch = 92 then [92, 92] ++ encLoop n s
    else if ch = 47 then [92, 47] ++ encLoop n s
    else if ch = 8 then [92, 98] ++ encLoop n s
    else if ch = 12 then [92, 102] ++ encLoop n s
    else if ch = 10 then [92, 110] ++ encLoop n s
    else if ch = 13 then [92, 114] ++ encLoop n s
    else if ch = 9 then [92, 116] ++ encLoop n s
    else if ch.toNat < 32 ∨ ch.toNat > 128 then
      match codePoint ch s with
      | none => []
      | some (cp, r) => [92, 117] ++ hexN 4 (if cp ≤ 65535 then cp else 46) ++ encLoop n r
    else ch :: encLoop n s

/-- WebUtil::JsonEncode (Util.cpp:1006-1125). -/
def jsonEncode (s : Bytes) : Bytes := encLoop s.length s

/-- The space reserved for a character (Util.cpp:1009-1034). -/
def reserve1 (ch : UInt8) : Nat :=
  1 + (if ch = 34 ∨ ch = 92 ∨ ch = 47 ∨ ch = 8 ∨ ch = 12 ∨ ch = 10 ∨ ch = 13 ∨ ch = 9 then 1
       else if ch.toNat < 32 ∨ ch.toNat ≥ 128 then 6 else 0)

/-- reqSize (Util.cpp:1009-1034). -/
def reserved (s : Bytes) : Nat := (s.map reserve1).sum

/-- `(char)strtol(s, nullptr, 16)`: the low byte of the value of the longest prefix which is a hexadecimal
number (not only of four digits). -/
def strtolLow (s : Bytes) : UInt8 :=
  match s.dropWhile isSpace with
  | 45 :: l => charOf (-(min (hexDigits 0 (skip0x l)) (2 ^ 63) : Nat))
  | 43 :: l => charOf (min (hexDigits 0 (skip0x l)) (2 ^ 63 - 1) : Nat)
  | l => charOf (min (hexDigits 0 (skip0x l)) (2 ^ 63 - 1) : Nat)

/-- The branch for a backslash (Util.cpp:1135-1173), `s` being the text after it: the character written
and the rest. -/
def escape (s : Bytes) : Option (UInt8 × Bytes) :=
  match s with
  | [] => none                       -- writes the zero and goes on behind it
  | c :: r =>
    if c = 34 then some (34, r)
    else if c = 92 then some (92, r)
    else if c = 47 then some (47, r)
    else if c = 98 then some (8, r)
    else if c = 102 then some (12, r)
    else if c = 110 then some (10, r)
    else if c = 114 then some (13, r)
    else if c = 116 then some (9, r)
    else if c = 117 then (if r.length < 4 then none else some (strtolLow r, r.drop 4))
    else some (c, r)

/-- The loop of JsonDecode (Util.cpp:1129-1181). -/
def decLoop : Nat → Bytes → Option Bytes
  | 0, _ => some []
  | _, [] => some []
  | n + 1, c :: s =>
    if c = 92 then
      match escape s with
      | none => none
      | some (out, r) => (decLoop n r).map (out :: ·)
    else (decLoop n s).map (c :: ·)

/-- WebUtil::JsonDecode (Util.cpp:1127-1185): the resulting text ends at the first zero written. -/
def jsonDecode (s : Bytes) : Option Bytes := (decLoop s.length s).map cstr

/-- `strchr(" ,[{:\r\n\t\f", c)`. -/
def isLead (c : UInt8) : Bool := (lit " ,[{:\r\n\t").contains c || c == 12

/-- `strchr(" ,]}\r\n\t\f", c)`. -/
def isEnd (c : UInt8) : Bool := (lit " ,]}\r\n\t").contains c || c == 12

/-- The scanning loop of JsonNextValue (Util.cpp:1214-1231): `ch` is the current character and `s` what
follows it; `acc` is what was passed (from pstart on, reversed). The result is the value and the rest of
the text; `none` is `return nullptr`. -/
def scan (str : Bool) (ch : UInt8) (s acc : Bytes) : Option (Bytes × Bytes) :=
  if ch = 92 then
    -- a backslash: two characters further
    match s with
    | e :: c :: s' =>
      if str = true ∧ c = 34 then some ((34 :: e :: ch :: acc).reverse, s')
      else if str = false ∧ isEnd c = true then some ((e :: ch :: acc).reverse, c :: s')
      else
        match s' with
        | [] => some ((c :: e :: ch :: acc).reverse, [])
        | d :: s'' => scan str d s'' (c :: e :: ch :: acc)
    | _ => none
  else if str = true ∧ ch = 34 then some ((34 :: acc).reverse, s)
  else if str = false ∧ isEnd ch = true then some (acc.reverse, ch :: s)
  else
    match s with
    | [] => some ((ch :: acc).reverse, [])
    | d :: s' => scan str d s' (ch :: acc)
  termination_by s.length

/-- WebUtil::JsonNextValue (Util.cpp:1199-1235): the value and the text after it. -/
def nextValue (text : Bytes) : Option (Bytes × Bytes) :=
  match text.dropWhile isLead with
  | [] => none
  | ch :: s =>
    if ch = 34 then
      match s with
      | [] => some ([34], [])
      | d :: s' => scan true d s' [34]
    else scan false ch s []

end Verif.JsonText
