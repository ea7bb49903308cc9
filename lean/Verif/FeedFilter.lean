import Verif.WildMask
import Verif.FeedExpr
/-
Model of the rules of feed filters (/repo/daemon/feed/FeedFilter.cpp): FeedFilter::Match (960-1011),
FeedFilter::ApplyOptions (1013-1055), FeedItemInfo::BuildDupeKey and AppendDupeKey
(/repo/daemon/feed/FeedInfo.cpp:79-117), the splitting of a rule into terms (FeedFilter::Rule::Compile,
FeedFilter.cpp:546-560) and the matching of texts (FeedFilter::Term::MatchText, FeedFilter.cpp:92-162,
with Tokenizer::Next and Util::Trim, /repo/daemon/util/Util.cpp:384-402, 1833-1848).

Not modelled: the parsing of the options of a rule, the numeric commands (floating point), regular
expressions, references `${1}` in options (the recorded positions are in WildMask).
-/
namespace Verif.FeedFilter
open CStr FeedExpr

inductive Mode where
  | score | all | force
deriving DecidableEq, Repr

/-- FeedItemInfo::EMatchStatus (FeedInfo.h). -/
inductive Status where
  | ignored | accepted | rejected
deriving DecidableEq, Repr

/-- The parts of FeedItemInfo (FeedInfo.h) the filter reads and changes. Season and episode are those
found in the title. -/
structure Item where
  pause : Bool
  category : Bytes
  priority : Int
  score : Int
  key : Bytes
  mode : Mode
  imdb : Int
  rage : Int
  tvdb : Int
  tvmaze : Int
  season : Bytes
  seasonNum : Int
  episode : Bytes
  episodeNum : Int
  status : Status
  rule : Nat
deriving DecidableEq, Repr

/-- The options of a rule (FeedFilter.h, class Rule: m_hasXxx and m_xxx). -/
structure Opts where
  pause : Option Bool := none
  category : Option Bytes := none
  priority : Option Int := none
  addPriority : Option Int := none
  score : Option Int := none
  addScore : Option Int := none
  rage : Option Bytes := none
  tvdb : Option Bytes := none
  tvmaze : Option Bytes := none
  series : Option Bytes := none
  key : Option Bytes := none
  addKey : Option Bytes := none
  mode : Option Mode := none
deriving DecidableEq, Repr

/-- `!Util::EmptyStr(s) ? atoi(s) : n` (FeedInfo.cpp:89-91). -/
def idOr (s : Option Bytes) (n : Int) : Int :=
  match s with
  | none => n
  | some b => if b = [] then n else atoll b

/-- `%i` of a number. -/
def showInt (i : Int) : Bytes :=
  if i < 0 then 45 :: decAux (i.natAbs + 1) i.natAbs else decAux (i.natAbs + 1) i.natAbs

/-- FeedItemInfo::BuildDupeKey (FeedInfo.cpp:87-117). -/
def buildKey (o : Opts) (it : Item) : Bytes :=
  let rage := idOr o.rage it.rage
  let tvdb := idOr o.tvdb it.tvdb
  let tvmaze := idOr o.tvmaze it.tvmaze
  let series := o.series.getD []
  let numbered := it.seasonNum ≠ 0 ∧ it.episodeNum ≠ 0
  let tail := [45] ++ it.season ++ [45] ++ it.episode
  if it.imdb ≠ 0 then lit "imdb=" ++ showInt it.imdb
  else if series ≠ [] ∧ numbered then lit "series=" ++ series ++ tail
  else if rage ≠ 0 ∧ numbered then lit "rageid=" ++ showInt rage ++ tail
  else if tvdb ≠ 0 ∧ numbered then lit "tvdbid=" ++ showInt tvdb ++ tail
  else if tvmaze ≠ 0 ∧ numbered then lit "tvmazeid=" ++ showInt tvmaze ++ tail
  else []

/-- FeedItemInfo::AppendDupeKey (FeedInfo.cpp:79-85). -/
def appendKey (key extra : Bytes) : Bytes :=
  if key ≠ [] ∧ extra ≠ [] then key ++ [45] ++ extra else key

/-- `if (rule.HasXxx()) { ... }`. -/
def ifHas {α : Type} (o : Option α) (f : α → Item → Item) (it : Item) : Item :=
  match o with
  | some v => f v it
  | none => it

/-- FeedFilter::ApplyOptions (FeedFilter.cpp:1013-1055). -/
def applyOptions (o : Opts) (it : Item) : Item :=
  let it := ifHas o.pause (fun v it => { it with pause := v }) it
  let it := ifHas o.category (fun v it => { it with category := v }) it
  let it := ifHas o.priority (fun v it => { it with priority := v }) it
  let it := ifHas o.addPriority (fun v it => { it with priority := it.priority + v }) it
  let it := ifHas o.score (fun v it => { it with score := v }) it
  let it := ifHas o.addScore (fun v it => { it with score := it.score + v }) it
  let it := if o.rage.isSome || o.tvdb.isSome || o.tvmaze.isSome || o.series.isSome then
    { it with key := buildKey o it } else it
  let it := ifHas o.key (fun v it => { it with key := v }) it
  let it := ifHas o.addKey (fun v it => { it with key := appendKey it.key v }) it
  ifHas o.mode (fun v it => { it with mode := v }) it

/-- ERuleCommand (FeedFilter.h). -/
inductive Command where
  | accept | reject | require | options | comment
deriving DecidableEq, Repr

structure Rule where
  valid : Bool
  command : Command
  terms : List Term
  opts : Opts

/-- FeedFilter::Match (FeedFilter.cpp:960-1011). `val` is the outcome of a condition for an item (the
conditions may ask for the settings changed by earlier rules); `index` is the number of the rules
already passed. -/
def matchRules (val : Item → Bytes → Bool) : Nat → List Rule → Item → Item
  | _, [], it => { it with status := .ignored, rule := 0 }
  | index, r :: rs, it =>
    if r.valid then
      let m := matchTerms (val it) r.terms
      match r.command with
      | .accept =>
        if m then applyOptions r.opts { it with status := .accepted, rule := index + 1 }
        else matchRules val (index + 1) rs it
      | .options =>
        if m then matchRules val (index + 1) rs
          (applyOptions r.opts { it with status := .accepted, rule := index + 1 })
        else matchRules val (index + 1) rs it
      | .reject =>
        if m then { it with status := .rejected, rule := index + 1 }
        else matchRules val (index + 1) rs it
      | .require =>
        if !m then { it with status := .rejected, rule := index + 1 }
        else matchRules val (index + 1) rs it
      | .comment => matchRules val (index + 1) rs it
    else matchRules val (index + 1) rs it

/-! ### Texts -/

/-- Characters removed by Util::Trim (Util.cpp:384-402). -/
def isBlank (b : UInt8) : Bool := b == 10 || b == 13 || b == 32 || b == 9

/-- Util::TrimRight (Util.cpp:384-392). -/
def trimRight (s : Bytes) : Bytes := (s.reverse.dropWhile isBlank).reverse

/-- Util::Trim (Util.cpp:394-402). -/
def trim (s : Bytes) : Bytes := (trimRight s).dropWhile isBlank

/-- WORD_SEPARATORS (FeedFilter.cpp:94). -/
def separators : Bytes := lit " !\"#$%&'()*+,-./:;<=>?@[\\]^_`{|}~"

def isSep (b : UInt8) : Bool := separators.contains b

/-- The tokens of strtok_r: the longest pieces without a separator. `cur` is the piece being read, in
reverse. -/
def pieces : (cur : Bytes) → Bytes → List Bytes
  | cur, [] => if cur = [] then [] else [cur.reverse]
  | cur, c :: s =>
    if isSep c then (if cur = [] then [] else [cur.reverse]) ++ pieces [] s
    else pieces (c :: cur) s

/-- Tokenizer::Next until the end (Util.cpp:1833-1848): trimmed tokens which are not empty. -/
def words (s : Bytes) : List Bytes := ((pieces [] s).map trim).filter (fun w => !w.isEmpty)

/-- Is a part of the text searched instead of a word? (FeedFilter.cpp:96-110). -/
def isSubstr (param : Bytes) : Bool :=
  (decide (2 ≤ param.length) && param.head? == some 42 && param.getLast? == some 42) ||
  param.any (fun c => isSep c && c != 42 && c != 63 && c != 35)

/-- The mask of the search for a part (FeedFilter.cpp:134-150). -/
def substrMask (param : Bytes) : Bytes :=
  if 2 ≤ param.length ∧ param.head? = some 42 ∧ param.getLast? = some 42 then param
  else if 1 ≤ param.length ∧ param.head? = some 42 then param ++ [42]
  else if 1 ≤ param.length ∧ param.getLast? = some 42 then 42 :: param
  else 42 :: param ++ [42]

/-- FeedFilter::Term::MatchText (FeedFilter.cpp:92-162), the result. -/
def matchText (param value : Bytes) : Bool :=
  if isSubstr param then WildMask.matches? (substrMask param) value
  else (words value).any (fun w => WildMask.matches? param w)

/-! ### Terms of a rule -/

/-- The loop of Rule::Compile over the text of the expression (FeedFilter.cpp:546-560): the terms are
separated by blanks; after a blank the first character of the next term is skipped by the loop (it is
not a blank). `cur` is the term being read, in reverse. Terms which cannot be compiled make the rule
invalid and are not modelled. -/
def splitTerms : (cur : Bytes) → Bytes → List Bytes
  | cur, [] => [cur.reverse]
  | cur, c :: s =>
    if c = 32 then cur.reverse :: nextTerm s
    else splitTerms (c :: cur) s
where
  /-- `while (*term == ' ') term++; p = term` and `p++` of the loop. -/
  nextTerm : Bytes → List Bytes
  | [] => [[]]
  | c :: s => if c = 32 then nextTerm s else splitTerms [c] s

end Verif.FeedFilter
