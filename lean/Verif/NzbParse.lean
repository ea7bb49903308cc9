import Verif.ParName
import Verif.Counters
/-
Model of the reading of nzb-files: /repo/daemon/queue/NzbFile.cpp AddArticle (45-58), AddFileInfo (60-114), the
handlers of the XML-parser (639-815, POSIX) and Parse (602-637). The XML-parser (libxml2) is not modelled: it gives
a sequence of events. `none` as result is undefined behaviour (use of a null pointer or of a freed object).
-/
namespace Verif.NzbParse
open CStr

/-- ArticleInfo (DownloadInfo.h:74-115). `serial` stands for the object itself. -/
structure Art where
  serial : Nat
  number : Int
  size : Int
  id : Option Bytes
deriving DecidableEq, Repr

/-- The FileInfo which is being read (`m_fileInfo`); its articles are a vector of pointers, of which some are null. -/
structure Cur where
  subject : Option Bytes
  time : Int
  groups : List (Option Bytes)
  arts : List (Option Art)
deriving DecidableEq, Repr

/-- A FileInfo in the list of files of the new download. -/
structure File where
  subject : Option Bytes
  time : Int
  groups : List (Option Bytes)
  arts : List Art
  size : Int
  remaining : Int
  missedSize : Int
  total : Int
  missed : Int
deriving DecidableEq, Repr

/-- The members of NzbFile (NzbFile.h:37-66). `art` is the pointer `m_article`, `text` is `m_tagContent` (`none`: nothing is
allocated). -/
structure St where
  files : List File
  cur : Option Cur
  art : Option Nat
  text : Option Bytes
  password : Option Bytes
  hasPassword : Bool
  next : Nat
deriving DecidableEq, Repr

/-- A new NzbFile. -/
def St.init : St := ⟨[], none, none, none, none, false, 0⟩

/-- An event of the XML-parser: start of an element with attributes (no attributes: a null pointer), end of an element,
a piece of text. -/
inductive Event
  | start (name : Bytes) (atts : List (Bytes × Bytes))
  | stop (name : Bytes)
  | chars (text : Bytes)
deriving DecidableEq, Repr

/-- NzbFile::AddArticle (NzbFile.cpp:45-58): the vector is made big enough and the article is put in; an index below 0 is
undefined. -/
def addArticle (arts : List (Option Art)) (a : Art) : Option (List (Option Art)) :=
  if a.number - 1 < 0 then none
  else
    let i := (a.number - 1).toNat
    let arts := if i < arts.length then arts else arts ++ List.replicate (i + 1 - arts.length) none
    some (arts.set i (some a))

/-- The local variables of the loop of AddFileInfo (NzbFile.cpp:64-70). -/
structure Sum where
  size : Int
  missedSize : Int
  one : Int
  uncounted : Int
  missed : Int
deriving DecidableEq, Repr

/-- The loop of AddFileInfo (NzbFile.cpp:71-99). -/
def sumLoop : List (Option Art) → Sum → Sum
  | [], s => s
  | none :: l, s =>
    if 0 < s.one then sumLoop l { s with missed := s.missed + 1, missedSize := s.missedSize + s.one }
    else sumLoop l { s with missed := s.missed + 1, uncounted := s.uncounted + 1 }
  | some a :: l, s => sumLoop l { s with size := s.size + a.size, one := if s.one = 0 then a.size else s.one }

/-- NzbFile::AddFileInfo (NzbFile.cpp:60-114): the file, if it has articles. SetSize (DownloadInfo.h:148). -/
def addFileInfo (c : Cur) : Option File :=
  let s := sumLoop c.arts ⟨0, 0, 0, 0, 0⟩
  let arts := c.arts.filterMap id
  if arts = [] then none
  else
    let missedSize := s.missedSize + s.uncounted * s.one
    let size := s.size + missedSize
    some { subject := c.subject, time := c.time, groups := c.groups, arts := arts, size := size, remaining := size - missedSize,
           missedSize := missedSize, total := c.arts.length, missed := s.missed }

/-- `atol` cut to an `int`. -/
def toInt (s : Bytes) : Int := (atoll s).bmod (2 ^ 32)

/-- The value of the last attribute of a name (the loops of NzbFile.cpp:656-668 and 687-699). -/
def attr (name : String) (atts : List (Bytes × Bytes)) : Option Bytes :=
  (atts.reverse.find? (fun a => a.1 == lit name)).map Prod.snd

/-- Blanks of XML (NzbFile.cpp:784, 800). -/
def blank (c : UInt8) : Bool := c == 32 || c == 10 || c == 13 || c == 9

/-- The trimmed text (NzbFile.cpp:775-815). -/
def trim (s : Bytes) : Bytes := ((s.dropWhile blank).reverse.dropWhile blank).reverse

/-- The text for the id of an article (NzbFile.cpp:749-751). A null pointer for `%s` is printed as `(null)` by glibc. -/
def idText (text : Option Bytes) : Bytes := (lit "<" ++ text.getD (lit "(null)") ++ lit ">").take 1023

/-- The new article of a segment (NzbFile.cpp:684-709). -/
def segment (s : St) (c : Cur) (atts : List (Bytes × Bytes)) : Option St :=
  let size := ((attr "bytes" atts).map atoll).getD (-1)
  let number := ((attr "number" atts).map toInt).getD (-1)
  if 0 < number then
    match addArticle c.arts ⟨s.next, number, size.bmod (2 ^ 32), none⟩ with
    | none => none
    | some arts => some { s with cur := some { c with arts := arts }, art := some s.next, next := s.next + 1 }
  else some s

/-- The id of an article is set through the pointer (NzbFile.cpp:751): `none` if the object does not exist any more. -/
def setId (arts : List (Option Art)) (k : Nat) (id : Bytes) : Option (List (Option Art)) :=
  if arts.any (fun a => (a.map Art.serial) == some k) then
    some (arts.map (fun a => a.map (fun x => if x.serial = k then { x with id := some id } else x)))
  else none

/-- NzbFile::Parse_StartElement (NzbFile.cpp:639-720). The name of the file and the messages are not modelled. -/
def startElement (s : St) (name : Bytes) (atts : List (Bytes × Bytes)) : Option St :=
  let s := { s with text := none }
  if name = lit "file" then
    some { s with cur := some ⟨attr "subject" atts, ((attr "date" atts).map toInt).getD 0, [], []⟩ }
  else if name = lit "segment" then
    match s.cur with
    | none => some s
    | some c => if atts = [] then some s else segment s c atts
  else if name = lit "meta" then
    match atts with
    | [] => some s
    | a :: _ => some { s with hasPassword := a.1 == lit "type" && a.2 == lit "password" }
  else some s

/-- NzbFile::Parse_EndElement (NzbFile.cpp:722-758). -/
def endElement (s : St) (name : Bytes) : Option St :=
  if name = lit "file" then
    match s.cur with
    | none => none
    | some c => some { s with files := s.files ++ (addFileInfo c).toList, cur := none, art := none }
  else if name = lit "group" then
    match s.cur with
    | none => some s
    | some c => some { s with cur := some { c with groups := c.groups ++ [s.text] }, text := none }
  else if name = lit "segment" then
    match s.cur, s.art with
    | some c, some k =>
      match setId c.arts k (idText s.text) with
      | none => none
      | some arts => some { s with cur := some { c with arts := arts }, art := none }
    | _, _ => some s
  else if name = lit "meta" && s.hasPassword then some { s with password := s.text }
  else some s

/-- NzbFile::SAX_characters and Parse_Content (NzbFile.cpp:760-763, 775-815). -/
def content (s : St) (t : Bytes) : St :=
  if trim t = [] then s else { s with text := some (s.text.getD [] ++ trim t) }

/-- An event. -/
def step (s : St) : Event → Option St
  | .start n a => startElement s n a
  | .stop n => endElement s n
  | .chars t => some (content s t)

/-- All events. -/
def run : St → List Event → Option St
  | s, [] => some s
  | s, e :: es =>
    match step s e with
    | none => none
    | some s => run s es

/-- The members of FileInfo for the counters (NzbFile.cpp:104-113 and 352-377); `par`: the name contains `.par2`. -/
def File.counters (f : File) (id : Nat) (par : Bool) : Counters.File :=
  { id := id, time := f.time, size := f.size, remaining := f.remaining, missed := f.missedSize, success := 0, failed := 0, total := f.total,
    missedArticles := f.missed, successArticles := 0, failedArticles := 0, completedArticles := 0, active := 0, par := par, paused := false,
    extra := false, stats := [] }

/-- The outcome of reading a file. -/
inductive Outcome
  | refused
  | accepted (files : List File) (password : Option Bytes)
deriving DecidableEq, Repr

/-- NzbFile::Parse (NzbFile.cpp:602-637) with the use of the ids of articles in CalcHashes (NzbFile.cpp:326-332): `strlen` of a
null pointer is undefined. `wellFormed`: the XML-parser reports no error. -/
def parse (wellFormed : Bool) (es : List Event) : Option Outcome :=
  match run .init es with
  | none => none
  | some s =>
    if wellFormed = false ∨ s.files = [] then some .refused
    else if s.files.all (fun f => f.arts.all (fun a => a.id.isSome)) then some (.accepted s.files s.password)
    else none

end Verif.NzbParse
