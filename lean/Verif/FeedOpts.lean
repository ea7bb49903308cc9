import Verif.FeedTerm
import Verif.Tokens
import Verif.OptStore
/-
Model of the reading of a feed rule (/repo/daemon/feed/FeedFilter.cpp): FeedFilter::Rule::Compile (526-574), CompileCommand (579-619),
CompileOptions (621-778), CompileTerm (780-790) and FeedFilter::Compile (933-958), with Util::Trim and Tokenizer.

References `${1}` in values are not modelled: the value is kept as it is written. Rules contain no NUL.
-/
namespace Verif.FeedOpts
open CStr Rpc FeedFilter FeedTerm

/-- The options of a rule by their meaning. -/
inductive Kind where
  | category | pause | priority | addPriority | score | addScore | key | addKey | mode | rage | tvdb | tvmaze | series
deriving DecidableEq, Repr

/-- The names of the options in the order of CompileOptions (FeedFilter.cpp:643-751). -/
def kinds : List (String × Kind) :=
  [("category", .category), ("cat", .category), ("c", .category), ("pause", .pause), ("p", .pause),
   ("priority", .priority), ("pr", .priority), ("r", .priority), ("priority+", .addPriority), ("pr+", .addPriority), ("r+", .addPriority),
   ("dupescore", .score), ("ds", .score), ("s", .score), ("dupescore+", .addScore), ("ds+", .addScore), ("s+", .addScore),
   ("dupekey", .key), ("dk", .key), ("k", .key), ("dupekey+", .addKey), ("dk+", .addKey), ("k+", .addKey),
   ("dupemode", .mode), ("dm", .mode), ("m", .mode), ("rageid", .rage), ("tvdbid", .tvdb), ("tvmazeid", .tvmaze), ("series", .series)]

/-- `strchr("0123456789-+", *value)`: also found if the value is empty. -/
def numStart (v : Bytes) : Bool :=
  match v with
  | [] => true
  | b :: _ => isDigit b || b == 45 || b == 43

/-- An option with a name (FeedFilter.cpp:643-751); `none` is an error. -/
def setKind (k : Kind) (v : Bytes) (o : Opts) : Option Opts :=
  match k with
  | .category => some { o with category := some v }
  | .pause =>
    if v = [] ∨ eqNoCase v (lit "yes") ∨ eqNoCase v (lit "y") then some { o with pause := some true }
    else if eqNoCase v (lit "no") ∨ eqNoCase v (lit "n") then some { o with pause := some false }
    else none
  | .priority => if numStart v then some { o with priority := some (OptStore.intOf v) } else none
  | .addPriority => if numStart v then some { o with addPriority := some (OptStore.intOf v) } else none
  | .score => if numStart v then some { o with score := some (OptStore.intOf v) } else none
  | .addScore => if numStart v then some { o with addScore := some (OptStore.intOf v) } else none
  | .key => some { o with key := some v }
  | .addKey => some { o with addKey := some v }
  | .mode =>
    if eqNoCase v (lit "score") ∨ eqNoCase v (lit "s") then some { o with mode := some .score }
    else if eqNoCase v (lit "all") ∨ eqNoCase v (lit "a") then some { o with mode := some .all }
    else if eqNoCase v (lit "force") ∨ eqNoCase v (lit "f") then some { o with mode := some .force }
    else none
  | .rage => some { o with rage := some v }
  | .tvdb => some { o with tvdb := some v }
  | .tvmaze => some { o with tvmaze := some v }
  | .series => some { o with series := some v }

/-- Options of older versions, and anything else (FeedFilter.cpp:753-768). -/
def setOld (name : Bytes) (o : Opts) : Opts :=
  if eqNoCase name (lit "paused") ∨ eqNoCase name (lit "unpaused") then { o with pause := some (eqNoCase name (lit "paused")) }
  else if numStart name then { o with priority := some (OptStore.intOf name) }
  else { o with category := some name }

/-- One option (FeedFilter.cpp:633-769): the name is what is before the colon, the value is trimmed. -/
def setOption (token : Bytes) (o : Opts) : Option Opts :=
  let p := match cutAt 58 token with
    | some (name, value) => (name, trim value)
    | none => (token, [])
  match kinds.find? (fun e => eqNoCase p.1 (lit e.1)) with
  | some e => setKind e.2 p.2 o
  | none => some (setOld p.1 o)

/-- The loop over the options (FeedFilter.cpp:632-769). -/
def setOptions : List Bytes → Opts → Option Opts
  | [], o => some o
  | t :: ts, o => (setOption t o).bind (setOptions ts)

/-- CompileOptions (FeedFilter.cpp:621-778): the options and what follows the bracket. -/
def readOptions (s : Bytes) : Option (Opts × Bytes) :=
  match cutAt 41 s with
  | none => none
  | some (inside, rest) =>
    (setOptions (Tokens.tokens (· == 44) inside) {}).map (·, if rest.head? = some 58 then rest.tail else rest)

/-- The beginnings of rules, in the order of CompileCommand (FeedFilter.cpp:581-603). -/
def commands : List (String × Command) :=
  [("A:", .accept), ("Accept:", .accept), ("A(", .accept), ("Accept(", .accept), ("O(", .options), ("Options(", .options),
   ("R:", .reject), ("Reject:", .reject), ("Q:", .require), ("Require:", .require)]

/-- CompileCommand (FeedFilter.cpp:579-619). -/
def readCommand (s : Bytes) : Option (Command × Opts × Bytes) :=
  match commands.find? (fun e => eqNoCase (s.take (lit e.1).length) (lit e.1)) with
  | some e =>
    if (lit e.1).getLast? = some 40 then (readOptions (s.drop (lit e.1).length)).map (fun r => (e.2, r.1, r.2))
    else some (e.2, {}, s.drop (lit e.1).length)
  | none => if s.head? = some 35 then some (.comment, {}, s) else some (.accept, {}, s)

/-- CompileTerm (FeedFilter.cpp:780-790): whether the term is valid. -/
def okTerm (n : Num) (token : Bytes) : Bool :=
  match FeedExpr.compileTerm token with
  | .cond positive body => (compileBody n positive body).isSome
  | _ => true

/-- Rule::Compile (FeedFilter.cpp:526-574). -/
def readRule (n : Num) (text : Bytes) : FeedFilter.Rule :=
  match readCommand (trim text) with
  | none => ⟨false, .accept, [], {}⟩
  | some (.comment, o, _) => ⟨true, .comment, [], o⟩
  | some (c, o, rest) =>
    let terms := splitTerms [] (trim rest)
    ⟨terms.all (okTerm n), c, terms.map FeedExpr.compileTerm, o⟩

/-- FeedFilter::Compile (FeedFilter.cpp:933-958): the rules are separated by `%`. -/
def splitRules : (cur : Bytes) → Bytes → List Bytes
  | cur, [] => [cur.reverse]
  | cur, c :: s => if c = 37 then cur.reverse :: splitRules [] s else splitRules (c :: cur) s

def readFilter (n : Num) (text : Bytes) : List FeedFilter.Rule := (splitRules [] text).map (readRule n)

end Verif.FeedOpts
