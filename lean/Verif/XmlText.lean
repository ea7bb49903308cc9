import Verif.CStr
/-
Model of the XML texts of /repo/daemon/util/Util.cpp: WebUtil::XmlEncode (733-852), XmlDecode (854-913),
XmlStripTags (958-970), XmlRemoveEntities (972-1004). They make the answers of the XML-RPC interface, read
its parameters, and clean the descriptions of feeds.

A text is the list of its bytes without the terminating zero. The functions working in place read with a
pointer `p` and write behind it; only the rest of the text at `p` and what was written are modelled. A read
behind the terminating zero is the outcome `none`.
-/
namespace Verif.XmlText
open CStr

/-- `(p[1] & 0xc0) == 0x80` for the character after the current one (0 at the end of the text). -/
def isCont : Bytes → Bool
  | [] => false
  | c :: _ => c.toNat / 64 == 2

/-- The decoding of UTF-8 in XmlEncode (Util.cpp:795-825) and JsonEncode (1082-1108). `ch` was read, `s`
follows. `none`: the text ended in the middle (`goto BreakLoop`). Masks of low bits are written as
remainders. -/
def codePoint (ch : UInt8) (s : Bytes) : Option (Nat × Bytes) :=
  let cp := ch.toNat
  if cp / 32 = 6 ∧ isCont s = true then
    match s with
    | c1 :: r => some (cp * 64 % 2048 + c1.toNat % 64, r)
    | _ => none
  else if cp / 16 = 14 ∧ isCont s = true then
    match s with
    | c1 :: c2 :: r => some (cp * 4096 % 65536 + c1.toNat * 64 % 4096 + c2.toNat % 64, r)
    | _ => none
  else if cp / 8 = 30 ∧ isCont s = true then
    match s with
    | c1 :: c2 :: c3 :: r =>
      some (cp * 262144 % 2097152 + c1.toNat * 4096 % 262144 + c2.toNat * 64 % 4096 + c3.toNat % 64, r)
    | _ => none
  else some (cp, s)

/-- The last `k` hexadecimal digits of a number (`%06x`, `%04x` of a number which needs no more). -/
def hexN : Nat → Nat → Bytes
  | 0, _ => []
  | k + 1, n => hexN k (n / 16) ++ [hexChar (n % 16)]

/-- The output for a code point (Util.cpp:827-840). -/
def charRef (cp : Nat) : Bytes :=
  if cp = 9 ∨ cp = 10 ∨ cp = 13 ∨ (32 ≤ cp ∧ cp ≤ 55295) ∨ (57344 ≤ cp ∧ cp ≤ 65533) ∨
      (65536 ≤ cp ∧ cp ≤ 1114111) then lit "&#x" ++ hexN 6 cp ++ [59]
  else [46]

/-- The loop of XmlEncode (Util.cpp:763-847); `fuel` at least the length of the text. -/
def encLoop : Nat → Bytes → Bytes
  | 0, _ => []
  | _, [] => []
  | n + 1, ch :: s =>
    if ch = 60 then lit "&lt;" ++ encLoop n s
    else if ch = 62 then lit "&gt;" ++ encLoop n s
    else if ch = 38 then lit "&amp;" ++ encLoop n s
    else if ch = 39 then lit "&apos;" ++ encLoop n s
    else if ch = 34 then lit "&quot;" ++ encLoop n s
    else if ch.toNat < 32 ∨ ch.toNat > 128 then
      match codePoint ch s with
      | none => []
      | some (cp, r) => charRef cp ++ encLoop n r
    else ch :: encLoop n s

/-- WebUtil::XmlEncode (Util.cpp:733-852). -/
def xmlEncode (s : Bytes) : Bytes := encLoop s.length s

/-- The space reserved for a character (Util.cpp:736-760). -/
def reserve1 (ch : UInt8) : Nat :=
  1 + (if ch = 62 ∨ ch = 60 then 4 else if ch = 38 then 5 else if ch = 39 ∨ ch = 34 then 6
       else if ch.toNat < 32 ∨ ch.toNat ≥ 128 then 10 else 0)

/-- reqSize (Util.cpp:736-760). -/
def reserved (s : Bytes) : Nat := (s.map reserve1).sum

/-- `(char)code` for the `int code`. -/
def charOf (i : Int) : UInt8 := UInt8.ofNat (i % 256).toNat

/-- `strchr("0123456789;", c)` for a character of the text. -/
def refChar (c : UInt8) : Bool := isDigit c || c == 59

/-- `while (strchr("0123456789;", *p)) p++;` (Util.cpp:894): the terminating zero is found by strchr as
well, so the loop does not stop at the end of the text. -/
def skipRef : Bytes → Option Bytes
  | [] => none
  | c :: s => if refChar c then skipRef s else some (c :: s)

/-- The branch for `&` (Util.cpp:862-905), `s` being the text after it: what is written and the rest. -/
def entity (s : Bytes) : Option (Bytes × Bytes) :=
  if startsWith (lit "lt;") s then some ([60], s.drop 3)
  else if startsWith (lit "gt;") s then some ([62], s.drop 3)
  else if startsWith (lit "amp;") s then some ([38], s.drop 4)
  else if startsWith (lit "apos;") s then some ([39], s.drop 5)
  else if startsWith (lit "quot;") s then some ([34], s.drop 5)
  else match s with
    | [] => none     -- writes the zero and goes on behind it
    | c :: r =>
      if c = 35 then (skipRef r).map (fun r' => ([charOf (atoll r)], r'))
      else some ([38, c], r)

/-- The loop of XmlDecode (Util.cpp:856-908). -/
def decLoop : Nat → Bytes → Option Bytes
  | 0, _ => some []
  | _, [] => some []
  | n + 1, c :: s =>
    if c = 38 then
      match entity s with
      | none => none
      | some (out, r) => (decLoop n r).map (out ++ ·)
    else (decLoop n s).map (c :: ·)

/-- WebUtil::XmlDecode (Util.cpp:854-913): the resulting text ends at the first zero written. -/
def xmlDecode (s : Bytes) : Option Bytes := (decLoop s.length s).map cstr

/-- `memset(start, ' ', end - start + 1)`: blanks from a `<` to the next `>`. -/
def blankTag : Bytes → Bytes × Bytes
  | [] => ([], [])
  | c :: s => if c = 62 then ([32], s) else ((32 :: (blankTag s).1), (blankTag s).2)

/-- WebUtil::XmlStripTags (Util.cpp:958-970); a `<` without a `>` after it ends the loop. -/
def stripTags : Nat → Bytes → Bytes
  | 0, s => s
  | _, [] => []
  | n + 1, c :: s =>
    if c = 60 then
      if s.contains 62 then 32 :: (blankTag s).1 ++ stripTags n (blankTag s).2 else c :: s
    else c :: stripTags n s

/-- `isalpha(*p2) || strchr("0123456789#", *p2)` for a character of the text (C locale). -/
def entityChar (c : UInt8) : Bool :=
  (65 ≤ c.toNat && c.toNat ≤ 90) || (97 ≤ c.toNat && c.toNat ≤ 122) || isDigit c || c == 35

/-- `while (isalpha(*p2) || strchr("0123456789#", *p2)) p2++;` (Util.cpp:986): the terminating zero is
found by strchr as well. -/
def skipEntity : Bytes → Option Bytes
  | [] => none
  | c :: s => if entityChar c then skipEntity s else some (c :: s)

/-- WebUtil::XmlRemoveEntities (Util.cpp:972-1004). -/
def removeEntities : Nat → Bytes → Option Bytes
  | 0, _ => some []
  | _, [] => some []
  | n + 1, c :: s =>
    if c = 38 then
      match skipEntity s with
      | none => none
      | some (59 :: r) => (removeEntities n r).map (32 :: ·)
      | some _ => (removeEntities n s).map (c :: ·)
    else (removeEntities n s).map (c :: ·)

/-- The cleaning of the description of a feed item (FeedFile.cpp:206-208, 493-495). -/
def cleanDescription (s : Bytes) : Option Bytes :=
  match xmlDecode (stripTags s.length s) with
  | none => none
  | some d => removeEntities d.length d

end Verif.XmlText
