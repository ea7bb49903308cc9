import Verif.XmlText
/-
Model of NzbFile::ReadPassword (/repo/daemon/queue/NzbFile.cpp:402-440): the password of an nzb-file is read once more from the first
4096 bytes of the file, if the XML parser has found one (392-395).

The buffer is the list of its bytes. In contrast to XmlText.xmlDecode, what is behind the end of the password is known here: the rest of
the beginning of the file, so that the decoder (WebUtil::XmlDecode, /repo/daemon/util/Util.cpp:854-913) is modelled on the buffer. Behind the
terminating zero of the text the buffer is not initialised; reading there is the outcome `none`, as is a file of no bytes, for which the
zero is written before the buffer.
-/
namespace Verif.NzbPass
open CStr XmlText

def openTag : Bytes := lit "<meta type=\"password\">"
def closeTag : Bytes := lit "</meta>"

/-- `while (strchr("0123456789;", *p)) p++;` (Util.cpp:894): a zero is passed. -/
def skipRefZ : Bytes → Option Bytes
  | [] => none
  | c :: s => if refChar c || c == 0 then skipRefZ s else some (c :: s)

/-- The branch for `&` (Util.cpp:863-904). -/
def entityZ (s : Bytes) : Option (Bytes × Bytes) :=
  if startsWith (lit "lt;") s then some ([60], s.drop 3)
  else if startsWith (lit "gt;") s then some ([62], s.drop 3)
  else if startsWith (lit "amp;") s then some ([38], s.drop 4)
  else if startsWith (lit "apos;") s then some ([39], s.drop 5)
  else if startsWith (lit "quot;") s then some ([34], s.drop 5)
  else match s with
    | [] => none
    | c :: r =>
      if c = 35 then (skipRefZ r).map (fun r' => ([charOf (atoll r)], r'))
      else some ([38, c], r)

/-- The loop of XmlDecode on the buffer (Util.cpp:856-910); each pass reads at least one byte, so that the length of the buffer is enough. -/
def decodeZ : Nat → Bytes → Option Bytes
  | 0, _ => none
  | _, [] => none
  | n + 1, c :: s =>
    if c = 0 then some []
    else if c = 38 then
      match entityZ s with
      | none => none
      | some (out, r) => (decodeZ n r).map (out ++ ·)
    else (decodeZ n s).map (c :: ·)

/-- strstr: the text before the first occurrence, and behind it. -/
def cutText (p : Bytes) : Bytes → Option (Bytes × Bytes)
  | [] => if p = [] then some ([], []) else none
  | b :: s => if startsWith p (b :: s) then some ([], (b :: s).drop p.length) else (cutText p s).map (fun r => (b :: r.1, r.2))

/-- The text in the buffer (NzbFile.cpp:411-426): at most 4095 bytes, without the last byte of a shorter file. -/
def inBuffer (file : Bytes) : Bytes := cstr (file.take (min file.length 4096 - 1))

/-- ReadPassword (NzbFile.cpp:402-440); `some none`: the password stays as it is. -/
def readPassword (file : Bytes) : Option (Option Bytes) :=
  if file = [] then none
  else match cutText openTag (inBuffer file) with
    | none => some none
    | some (_, t) =>
      match cutText closeTag t with
      | none => some none
      | some (e, rest) =>
        (decodeZ (t.length + 1) (e ++ 0 :: (closeTag.tail ++ rest ++ [0]))).map (fun p => some (cstr p))

end Verif.NzbPass
