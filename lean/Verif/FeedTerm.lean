import Verif.FeedFilter
import Verif.Rpc
/-
Model of the conditions of a feed rule (/repo/daemon/feed/FeedFilter.cpp): FeedFilter::Term::Compile (179-286), GetFieldData (291-393),
ParseParam (395-411), ParseSizeParam (413-444), ParseAgeParam (446-481), ParseNumericParam (483-497), Match (27-45) and MatchValue (47-90),
with FeedItemInfo::Attributes::Find (/repo/daemon/feed/FeedInfo.cpp:43-54).

The sign and the brackets are read by FeedExpr.compileTerm, the texts are compared by FeedFilter.matchText. Numbers are read with atof; a
number of digits only whose product with the unit is at most 2^53 is exact, every other number is a parameter (`Num.scaled`), and so are
comparisons of fractions (`Num.holds`). Regular expressions are a parameter (`Num.regex`).
-/
namespace Verif.FeedTerm
open CStr Rpc

/-- The commands of conditions (FeedFilter.h:36-48). -/
inductive Cmd where
  | text | regex | eq | lt | le | gt | ge
deriving DecidableEq, Repr

/-- What an item of a feed has (FeedInfo.h, FeedItemInfo). Texts may be missing. -/
structure Info where
  title : Option Bytes := none
  filename : Option Bytes := none
  category : Option Bytes := none
  url : Option Bytes := none
  description : Option Bytes := none
  key : Option Bytes := none
  dupes : Option Bytes := none
  size : Int := 0
  time : Int := 0
  imdb : Int := 0
  rage : Int := 0
  tvdb : Int := 0
  tvmaze : Int := 0
  season : Int := 0
  episode : Int := 0
  priority : Int := 0
  score : Int := 0
  attrs : List (Bytes × Bytes) := []
deriving DecidableEq, Repr

inductive Field where
  | title | filename | category | url | description | key | dupes
  | size | age | imdb | rage | tvdb | tvmaze | season | episode | priority | score
  | attr (name : Bytes)
deriving DecidableEq, Repr

/-- The names of the fields in the order of GetFieldData (FeedFilter.cpp:297-392). -/
def names : List (String × Field) :=
  [("title", .title), ("filename", .filename), ("category", .category), ("link", .url), ("url", .url), ("size", .size), ("age", .age),
   ("imdbid", .imdb), ("rageid", .rage), ("tvdbid", .tvdb), ("tvmazeid", .tvmaze), ("description", .description), ("season", .season),
   ("episode", .episode), ("priority", .priority), ("dupekey", .key), ("dupescore", .score), ("dupestatus", .dupes)]

/-- GetFieldData without an item: which field is meant (FeedFilter.cpp:291-393). -/
def fieldOf (name : Bytes) : Option Field :=
  match names.find? (fun e => eqNoCase name (lit e.1)) with
  | some e => some e.2
  | none => if eqNoCase (name.take 5) (lit "attr-") then some (.attr (name.drop 5)) else none

/-- GetFieldData with an item: the text, or none, and the number (FeedFilter.cpp:291-393). -/
def dataOf (now : Int) (i : Info) : Field → Option Bytes × Int
  | .title => (i.title, 0)
  | .filename => (i.filename, 0)
  | .category => (i.category, 0)
  | .url => (i.url, 0)
  | .description => (i.description, 0)
  | .key => (i.key, 0)
  | .dupes => (i.dupes, 0)
  | .size => (none, i.size)
  | .age => (none, now - i.time)
  | .imdb => (none, i.imdb)
  | .rage => (none, i.rage)
  | .tvdb => (none, i.tvdb)
  | .tvmaze => (none, i.tvmaze)
  | .season => (none, i.season)
  | .episode => (none, i.episode)
  | .priority => (none, i.priority)
  | .score => (none, i.score)
  | .attr name => ((i.attrs.find? (fun a => eqNoCase a.1 name)).map (·.2), 0)

/-- What is not modelled: floating point numbers and regular expressions. -/
structure Num where
  scaled : Bytes → Nat → Int
  holds : Cmd → Bytes → Option Bytes → Int → Bool
  regex : Bytes → Bytes → Bool

/-- Digits, perhaps behind a minus. -/
def plain (s : Bytes) : Bool := s.all isDigit || (s.head? == some 45 && s.tail.all isDigit)

/-- `(int64)(atof(s) * m)`. -/
def scaled (o : Num) (s : Bytes) (m : Nat) : Int :=
  if plain s ∧ (atoll s).natAbs * m ≤ 2 ^ 53 then atoll s * m else o.scaled s m

/-- The characters of a number without sign (FeedFilter.cpp:418, 451). -/
def numChar (b : UInt8) : Bool := isDigit b || b == 46

/-- The units of sizes (FeedFilter.cpp:419-441). -/
def sizeUnit (u : Bytes) : Option Nat :=
  if u = [] then some 1
  else if eqNoCase u (lit "K") || eqNoCase u (lit "KB") then some 1024
  else if eqNoCase u (lit "M") || eqNoCase u (lit "MB") then some (1024 * 1024)
  else if eqNoCase u (lit "G") || eqNoCase u (lit "GB") then some (1024 * 1024 * 1024)
  else none

/-- The units of ages (FeedFilter.cpp:452-478). -/
def ageUnit (u : Bytes) : Option Nat :=
  if u = [] then some (60 * 60 * 24)
  else if eqNoCase u (lit "m") then some 60
  else if eqNoCase u (lit "h") then some (60 * 60)
  else if eqNoCase u (lit "d") then some (60 * 60 * 24)
  else none

/-- ParseSizeParam and ParseAgeParam (FeedFilter.cpp:413-481): what atof reads ends where the unit begins. -/
def parseUnit (o : Num) (unit : Bytes → Option Nat) (param : Bytes) : Option Int :=
  (unit (param.dropWhile numChar)).map (scaled o (param.takeWhile numChar))

/-- ParseNumericParam (FeedFilter.cpp:483-497): the number, and whether it is a fraction. -/
def parseNumber (o : Num) (param : Bytes) : Option (Int × Bool) :=
  if param.all (fun b => isDigit b || b == 46 || b == 45) then some (scaled o param 1, param.contains 46) else none

def Cmd.numeric : Cmd → Bool
  | .text => false
  | .regex => false
  | _ => true

/-- ParseParam (FeedFilter.cpp:395-411). -/
def parseParam (o : Num) (f : Field) (c : Cmd) (param : Bytes) : Option (Int × Bool) :=
  match f with
  | .size => (parseUnit o sizeUnit param).map (·, false)
  | .age => (parseUnit o ageUnit param).map (·, false)
  | _ => if c.numeric then parseNumber o param else some (0, false)

/-- A condition (FeedFilter.h:52-84). -/
structure Cond where
  positive : Bool
  field : Field
  cmd : Cmd
  param : Bytes
  int : Int
  frac : Bool
deriving DecidableEq, Repr

/-- The text before the first `c`, and what follows. -/
def cutAt (c : UInt8) : Bytes → Option (Bytes × Bytes)
  | [] => none
  | b :: s => if b = c then some ([], s) else (cutAt c s).map (fun p => (b :: p.1, p.2))

/-- The command and the parameter (FeedFilter.cpp:230-266). -/
def cmdOf : Bytes → Cmd × Bytes
  | 64 :: s => (.text, s)
  | 36 :: s => (.regex, s)
  | 61 :: s => (.eq, s)
  | 60 :: 61 :: s => (.le, s)
  | 62 :: 61 :: s => (.ge, s)
  | 60 :: s => (.lt, s)
  | 62 :: s => (.gt, s)
  | s => (.text, s)

/-- A condition without field begins with a command (FeedFilter.cpp:212-216). -/
def special (b : Option UInt8) : Bool := b == some 64 || b == some 36 || b == some 60 || b == some 62 || b == some 61

/-- The rest of Term::Compile behind the sign (FeedFilter.cpp:209-286); `none` makes the rule invalid. -/
def compileBody (o : Num) (positive : Bool) (body : Bytes) : Option Cond :=
  match (if special body.head? then none else cutAt 58 body) with
  | none =>
    if body = [] then none else some ⟨positive, .title, (cmdOf body).1, (cmdOf body).2, 0, false⟩
  | some (name, rest) =>
    if rest = [] then none
    else match fieldOf name with
      | none => none
      | some f => (parseParam o f (cmdOf rest).1 (cmdOf rest).2).map
          (fun v => ⟨positive, f, (cmdOf rest).1, (cmdOf rest).2, v.1, v.2⟩)

/-- Term::Compile (FeedFilter.cpp:179-286) of a token which is no bracket and not `|`. -/
def compile (o : Num) (token : Bytes) : Option Cond :=
  match FeedExpr.compileTerm token with
  | .cond positive body => compileBody o positive body
  | _ => none

def Cmd.test : Cmd → Int → Int → Bool
  | .eq, a, b => a = b
  | .lt, a, b => a < b
  | .le, a, b => a ≤ b
  | .gt, a, b => a > b
  | .ge, a, b => a ≥ b
  | _, _, _ => false

/-- Term::MatchValue (FeedFilter.cpp:47-90). -/
def matchValue (o : Num) (c : Cond) (v : Option Bytes × Int) : Bool :=
  match c.cmd with
  | .text => FeedFilter.matchText c.param (v.1.getD (decInt v.2))
  | .regex => o.regex c.param (v.1.getD (decInt v.2))
  | cmd =>
    if c.frac then o.holds cmd c.param v.1 v.2
    else cmd.test (match v.1 with | some s => scaled o s 1 | none => v.2) c.int

/-- Term::Match (FeedFilter.cpp:27-45). -/
def holds (o : Num) (now : Int) (i : Info) (c : Cond) : Bool := c.positive == matchValue o c (dataOf now i c.field)

end Verif.FeedTerm
