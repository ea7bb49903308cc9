import Verif.XmlText
/-
Model of further texts from the network, /repo/daemon/util/Util.cpp: WebUtil::HttpUnquote (1237-1264),
UrlDecode (1266-1296), UrlEncode (1298-1335), Latin1ToUtf8 (1337-1358), and the time zone of
ParseRfc822DateTime (1368-1410). A read behind the terminating zero is the outcome `none`.
-/
namespace Verif.UrlText
open CStr XmlText

/-- The value of a digit in UrlDecode (Util.cpp:1279-1282); other characters count as 0. -/
def hexOr0 (c : UInt8) : Nat := (hexVal c).getD 0

/-- The loop of UrlDecode (Util.cpp:1268-1291). After a `%` two characters are skipped without looking
whether the text ends. -/
def urlLoop : Bytes → Option Bytes
  | [] => some []
  | c :: s =>
    if c = 37 then
      match s with
      | c1 :: c2 :: r => (urlLoop r).map (UInt8.ofNat (hexOr0 c1 * 16 + hexOr0 c2) :: ·)
      | _ => none
    else (urlLoop s).map (c :: ·)

/-- WebUtil::UrlDecode (Util.cpp:1266-1296): the resulting text ends at the first zero written. -/
def urlDecode (s : Bytes) : Option Bytes := (urlLoop s).map cstr

/-- WebUtil::UrlEncode (Util.cpp:1298-1335). -/
def urlEncode : Bytes → Bytes
  | [] => []
  | c :: s => if c = 32 then lit "%20" ++ urlEncode s else c :: urlEncode s

/-- The loop of HttpUnquote (Util.cpp:1245-1260). After a backslash the next character is written but not
passed. -/
def unquoteLoop : Bytes → Bytes
  | [] => []
  | c :: s =>
    if c = 34 then []
    else if c = 92 then
      match s with
      | [] => [0]
      | d :: r => d :: unquoteLoop (d :: r)
    else c :: unquoteLoop s

/-- WebUtil::HttpUnquote (Util.cpp:1237-1264). -/
def httpUnquote (s : Bytes) : Bytes :=
  match s with
  | 34 :: r => cstr (unquoteLoop r)
  | s => s

/-- WebUtil::Latin1ToUtf8 (Util.cpp:1337-1358). -/
def latin1ToUtf8 : Bytes → Bytes
  | [] => []
  | c :: s =>
    if c.toNat < 128 then c :: latin1ToUtf8 s
    else UInt8.ofNat (194 + (if c.toNat > 191 then 1 else 0)) :: UInt8.ofNat (c.toNat % 64 + 128) ::
      latin1ToUtf8 s

/-- What `%3d %2d` read from a time zone `+hhmm` or `-hhmm`: an int with its sign and an int. -/
def scanZone (neg : Bool) (hh mm : Nat) : Int × Int := (if neg then -(hh : Int) else hh, mm)

/-- `enctime -= (zonehours * 60 + (zonehours > 0 ? zoneminutes : -zoneminutes)) * 60` (Util.cpp:1407). -/
def applyZone (enctime zonehours zoneminutes : Int) : Int :=
  enctime - (zonehours * 60 + (if zonehours > 0 then zoneminutes else -zoneminutes)) * 60

end Verif.UrlText
