import Verif.FeedTerm
import Verif.NzbPass
import Verif.OptStore
/-
Model of the expansion of references in the options of feed rules: FeedFilter::Rule::ExpandRefValues and GetRefValue
(/repo/daemon/feed/FeedFilter.cpp:872-926).

Season and episode of the item and the texts of the wildcards which were found while the conditions of the rule were evaluated are given (the
latter see WildRefProps). A season or episode which isn't known is the empty text.
-/
namespace Verif.FeedRefs
open CStr
open FeedTerm (cutAt)
open NzbPass (cutText)

/-- What the references stand for. -/
structure Values where
  season : Bytes
  episode : Bytes
  refs : List Bytes

/-- GetRefValue (FeedFilter.cpp:906-926). -/
def valueOf (v : Values) (name : Bytes) : Option Bytes :=
  if Rpc.eqNoCase name (lit "season") then some v.season
  else if Rpc.eqNoCase name (lit "episode") then some v.episode
  else if 0 ≤ OptStore.intOf name - 1 then v.refs[(OptStore.intOf name - 1).toNat]?
  else none

/-- The name of the variable (FeedFilter.cpp:891-893): `BString::Set` takes at most 99 characters, and as many as there are for an empty name
(/repo/daemon/util/NString.cpp:33-39). -/
def nameOf (name t : Bytes) : Bytes := if name = [] then t.take 99 else name.take 99

/-- The loop of ExpandRefValues (FeedFilter.cpp:877-901); the number is that of the attempts which are left. -/
def expandLoop (v : Values) : Nat → Bytes → Bytes
  | 0, s => s
  | n + 1, s =>
    match cutText (lit "${") s with
    | none => s
    | some (a, t) =>
      match cutAt 125 t with
      | none => s
      | some (name, rest) =>
        match valueOf v (nameOf name t) with
        | none => s
        | some x => expandLoop v n (a ++ (x ++ rest))

/-- ExpandRefValues (FeedFilter.cpp:872-904). -/
def expand (v : Values) (pattern : Bytes) : Bytes := expandLoop v 100 pattern

end Verif.FeedRefs
