import Verif.NzbParse
import Verif.XmlText
import Verif.FeedTerm
import Verif.OptStore
/-
Model of the reading of feeds: /repo/daemon/feed/FeedFile.cpp, ParseSubject (46-76) and the handlers of the XML-parser (388-570, POSIX).
The XML-parser (libxml2) is not modelled: it gives a sequence of events. `none` as result is undefined behaviour: the use of a null pointer or
a read behind the end of a text. The reading of dates is a parameter (see UrlText).
-/
namespace Verif.FeedParse
open CStr
open NzbParse (Event trim)
open FeedTerm (cutAt)
open XmlText (xmlDecode cleanDescription)

/-- FeedItemInfo (FeedInfo.h:194-223), as far as it is filled from the feed; `none` for a null pointer. -/
structure Item where
  title : Option Bytes := none
  filename : Option Bytes := none
  url : Option Bytes := none
  size : Int := 0
  time : Int := 0
  category : Bytes := []
  imdb : Int := 0
  rage : Int := 0
  tvdb : Int := 0
  tvmaze : Int := 0
  description : Bytes := []
  season : Option Bytes := none
  episode : Option Bytes := none
  attrs : List (Bytes × Bytes) := []
deriving DecidableEq, Repr

/-- The members of FeedFile (FeedFile.h:37-48): the items before the current one, the current one (`m_feedItemInfo`, always the last of the list) and
`m_tagContent`, for which no text and the null pointer are the same. -/
structure St where
  items : List Item
  cur : Option Item
  text : Bytes
deriving DecidableEq, Repr

def St.init : St := ⟨[], none, []⟩

/-- The list of items. -/
def St.all (s : St) : List Item := s.items ++ s.cur.toList

/-- The extension is cut off (FeedFile.cpp:63-67). -/
def stripPar2 (f : Bytes) : Bytes :=
  match cutAt 46 f.reverse with
  | none => f
  | some (e, b) => if Rpc.eqNoCase (46 :: e.reverse) (lit ".par2") then b.reverse else f

/-- ParseSubject (FeedFile.cpp:46-76); the search for the second quotation mark begins one character behind the first one of the text in between, which
is behind the end if there is no character. -/
def parseSubject (title : Bytes) : Option Bytes :=
  match cutAt 34 title with
  | none => some title
  | some (_, []) => none
  | some (_, x :: s) =>
    match cutAt 34 s with
    | none => some title
    | some (m, _) => if m.contains 46 then some (stripPar2 (x :: m)) else some title

/-- The loop over the attributes of an enclosure (FeedFile.cpp:400-413). -/
def enclosure : Item → List (Bytes × Bytes) → Option Item
  | it, [] => some it
  | it, a :: l =>
    if a.1 = lit "url" then
      match xmlDecode a.2 with
      | none => none
      | some u => enclosure { it with url := some u } l
    else if a.1 = lit "length" then enclosure { it with size := atoll a.2 } l
    else enclosure it l

/-- An attribute of an item (FeedFile.cpp:420-466). -/
def addAttr (it : Item) (n v : Bytes) : Item :=
  let it := { it with attrs := it.attrs ++ [(n, v)] }
  if it.size = 0 ∧ n = lit "size" then { it with size := atoll v }
  else if n = lit "imdb" then { it with imdb := OptStore.intOf v }
  else if n = lit "rageid" then { it with rage := OptStore.intOf v }
  else if n = lit "tvdbid" then { it with tvdb := OptStore.intOf v }
  else if n = lit "tvmazeid" then { it with tvmaze := OptStore.intOf v }
  else if n = lit "episode" then { it with episode := some v }
  else if n = lit "season" then { it with season := some v }
  else it

/-- Parse_StartElement (FeedFile.cpp:388-468). Without attributes the XML-parser gives a null pointer, which is dereferenced in the lines 400 and 417. -/
def startElement (s : St) (name : Bytes) (atts : List (Bytes × Bytes)) : Option St :=
  if name = lit "item" then some ⟨s.all, some {}, []⟩
  else match s.cur with
    | none => some { s with text := [] }
    | some it =>
      if name = lit "enclosure" then
        if atts = [] then none
        else match enclosure it atts with
          | none => none
          | some it => some { s with cur := some it, text := [] }
      else if name = lit "newznab:attr" || name = lit "nZEDb:attr" then
        match atts with
        | [] => none
        | [_] => some { s with text := [] }
        | a :: b :: _ =>
          if a.1 = lit "name" && b.1 = lit "value" then some { s with cur := some (addAttr it a.2 b.2), text := [] }
          else some { s with text := [] }
      else some { s with text := [] }

/-- Parse_EndElement (FeedFile.cpp:470-508). The description is copied with `*m_tagContent`, which is a null pointer if there is no text, and given to
XmlStripTags (492-493). -/
def endElement (date : Bytes → Int) (s : St) (name : Bytes) : Option St :=
  match s.cur with
  | none => some s
  | some it =>
    if name = lit "title" then
      match parseSubject s.text with
      | none => none
      | some f => some { s with cur := some { it with title := some s.text, filename := some f }, text := [] }
    else if name = lit "link" && it.url.getD [] == [] then some { s with cur := some { it with url := some s.text }, text := [] }
    else if name = lit "category" then some { s with cur := some { it with category := s.text }, text := [] }
    else if name = lit "description" then
      if s.text = [] then none
      else match cleanDescription s.text with
        | none => none
        | some d => some { s with cur := some { it with description := d }, text := [] }
    else if name = lit "pubDate" then
      some { s with cur := some (if 0 < date s.text then { it with time := date s.text } else it), text := [] }
    else some s

/-- SAX_characters and Parse_Content (FeedFile.cpp:510-513, 530-570). -/
def content (s : St) (t : Bytes) : St := if trim t = [] then s else { s with text := s.text ++ trim t }

/-- An event. -/
def step (date : Bytes → Int) (s : St) : Event → Option St
  | .start n a => startElement s n a
  | .stop n => endElement date s n
  | .chars t => some (content s t)

/-- All events. -/
def run (date : Bytes → Int) : St → List Event → Option St
  | s, [] => some s
  | s, e :: es =>
    match step date s e with
    | none => none
    | some s => run date s es

/-- The items of a feed: Parse (FeedFile.cpp:361-386), if the XML-parser reports no error. -/
def parse (date : Bytes → Int) (es : List Event) : Option (List Item) := (run date .init es).map St.all

/-- FeedItemInfo::ParsePrefixedInt (FeedInfo.cpp:69-77), the number of a season or an episode. -/
def prefixedInt : Bytes → Int
  | [] => 0
  | c :: s => if isDigit c then OptStore.intOf (c :: s) else OptStore.intOf s

end Verif.FeedParse
